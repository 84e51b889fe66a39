import Verif.Props.Response
import Verif.Proofs.ResponseSays
import Verif.Spec.Head
import Verif.Proofs.ResponseNum
/-!
# Responses: C20-C23, C27-C29
-/
namespace Verif
open Verif.Py Verif.Model.Upload Verif.Model.Response Verif.Spec.Response Verif.Proofs.Response

/-! ## What a request leaves in the log -/

/-- The calls behind the head of a request served by a handler: request middlewares, route options, handler, response
middlewares. -/
abbrev before (a : App) (sc : Script) : List Call := mwCalls a.qms ++ optCalls a.opt.status a.opt.ctype ++ callsOf sc

theorem not_ended {c s calls ms s'} (h : Pass ms) : ¬ MwEnded c s calls ms s' := by
  rintro ⟨pre, m, post, d, e, _, hd, _⟩
  rw [h m (by rw [e]; simp)] at hd; cases hd
theorem not_odd {ms : List Mw} (h : Pass ms) : ¬ MwOdd ms := by
  rintro ⟨pre, m, post, e, _, ho⟩
  rw [h m (by rw [e]; simp)] at ho; cases ho

/-- The first middleware that does not return `None` is unique. -/
theorem first_unique {pre pre' post post' : List Mw} {m m' : Mw} (e : pre ++ m :: post = pre' ++ m' :: post') (h : Pass pre) (h' : Pass pre')
    (hm : m.ret ≠ .none) (hm' : m'.ret ≠ .none) : pre = pre' ∧ m = m' ∧ post = post' := by
  induction pre generalizing pre' with
  | nil =>
    cases pre' with
    | nil => simpa using e
    | cons x t => simp at e; exact absurd (h' x (by simp)) (e.1 ▸ hm)
  | cons y t ih =>
    cases pre' with
    | nil => simp at e; exact absurd (h y (by simp)) (e.1 ▸ hm')
    | cons x t' =>
      simp only [List.cons_append, List.cons.injEq] at e
      have ⟨h1, h2, h3⟩ := ih e.2 (fun z hz => h z (by simp [hz])) (fun z hz => h' z (by simp [hz]))
      exact ⟨by rw [e.1, h1], h2, h3⟩

theorem ended_at {c s calls ms s'} {pre post : List Mw} {m : Mw} {d : Bytes} (hm : ms = pre ++ m :: post) (pp : Pass pre) (hd : m.ret = .data d)
    (h : MwEnded c s calls ms s') : Ended c (calls ++ mwCalls pre ++ callsOf m.script ++ optCalls m.status m.ctype) d s.keepalive { throttle := false } s.log s' := by
  obtain ⟨pre', m', post', d', e, h1, h2, h3⟩ := h
  obtain ⟨rfl, rfl, rfl⟩ := first_unique (hm.symm.trans e) pp h1 (by rw [hd]; simp) (by rw [h2]; simp)
  rw [h2] at hd; cases hd
  exact h3
theorem odd_not {ms pre post : List Mw} {m : Mw} {d : Bytes} (hm : ms = pre ++ m :: post) (pp : Pass pre) (hd : m.ret = .data d) : ¬ MwOdd ms := by
  rintro ⟨pre', m', post', e, h1, h2⟩
  obtain ⟨rfl, rfl, rfl⟩ := first_unique (hm.symm.trans e) pp h1 (by rw [hd]; simp) (by rw [h2]; simp)
  rw [h2] at hd; cases hd

/-- A request answered by a request middleware. -/
theorem mw_ended {c : Cfg} (hc : CfgOk c) {a : App} (hq : ∀ m ∈ a.qms, Script.Fine m.script) {pre post : List Mw} {m : Mw} {d : Bytes}
    (hm : a.qms = pre ++ m :: post) (pp : Pass pre) (hd : m.ret = .data d) {s s' : St} (fs : Fresh s) (run : serve c a s = (.ok (), s')) :
    Ended c (mwCalls pre ++ callsOf m.script ++ optCalls m.status m.ctype) d s.keepalive { throttle := false } [] s' := by
  rcases serve_spec hc hq fs (Q := fun _ => True) (fun s _ => by unfold Post; split <;> trivial) run with ⟨h, _⟩ | h | h
  · rw [h m (by rw [hm]; simp)] at hd; cases hd
  · have := ended_at hm pp hd h
    rw [fs.log] at this; simpa using this
  · exact absurd h.1 (odd_not hm pp hd)

theorem endBody_eq (c : Cfg) (st : Int) (d : Bytes) : endBody c st d = if bodyless c st then [] else d := by
  unfold endBody bodyless
  rw [Proofs.Response.noContent_eq]
  cases d <;> simp

/-- A request whose middlewares all let it through and whose handler returns data. -/
theorem returned_sent {c : Cfg} (hc : CfgOk c) {a : App} (hq : ∀ m ∈ a.qms, Script.Fine m.script) (hr : ∀ m ∈ a.rms, Script.Fine m.script)
    (pq : Pass a.qms) (pr : Pass a.rms) {sc : Script} (hs : Script.Fine sc) {d : Bytes} (hh : a.handler = .coro sc (.data d)) {s s' : St} (fs : Fresh s)
    (run : serve c a s = (.ok (), s')) :
    Sent c (dataCalls c a.opt (before a sc) d s.keepalive ++ mwCalls a.rms) (!noBody (lastStatus (before a sc)).1) []
      (dataTail c a.opt (lastStatus (before a sc)).1 d s.keepalive) s.keepalive s' := by
  have h := coro_spec hc a.opt hr hs d (g := false) (s0 := s) (calls := mwCalls a.qms) fs.upgraded
  rw [← hh] at h
  rcases serve_spec hc hq fs h run with ⟨_, h | h | h⟩ | h | h
  · rw [fs.log] at h; exact h
  · exact absurd h (not_ended pr)
  · exact absurd h.1 (not_odd pr)
  · exact absurd h (not_ended pq)
  · exact absurd h.1 (not_odd pq)

/-- A request whose middlewares all let it through and whose handler yields. -/
theorem streamed_sent {c : Cfg} (hc : CfgOk c) {a : App} (hq : ∀ m ∈ a.qms, Script.Fine m.script) (hr : ∀ m ∈ a.rms, Script.Fine m.script)
    (pq : Pass a.qms) (pr : Pass a.rms) {sc : Script} (hs : Script.Fine sc) {d : Bytes} {rest : List (Script × Bytes)} (hy : ∀ y ∈ rest, Script.Fine y.1)
    {fin : Script} (hf : Script.Fine fin) {ex : Option Exc} (hh : a.handler = .gen ((sc, d) :: rest) fin ex) {s s' : St} (fs : Fresh s)
    (run : serve c a s = (.ok (), s')) :
    (bodyless c (lastStatus (before a sc)).1 = true ∨ ex = none) ∧
    Sent c (genCalls c a.opt (before a sc) s.keepalive ++ mwCalls a.rms ++ genLate c (lastStatus (before a sc)).1 d rest fin) (!noBody (lastStatus (before a sc)).1) []
      (genTail c a.opt (lastStatus (before a sc)).1 (d :: rest.map (·.2)) (genKeep c a.opt (before a sc) s.keepalive)) (genKeep c a.opt (before a sc) s.keepalive) s' := by
  have h := gen_spec hc a.opt hr hs d hy hf (ex := ex) (g := false) (s0 := s) (calls := mwCalls a.qms) fs.upgraded
  rw [← hh] at h
  rcases serve_spec hc hq fs h run with ⟨_, h | h | h⟩ | h | h
  · rw [fs.log] at h; exact h
  · exact absurd h (not_ended pr)
  · exact absurd h.1 (not_odd pr)
  · exact absurd h (not_ended pq)
  · exact absurd h.1 (not_odd pq)

/-! ## C27 -/

/-- **C27**, for `end`: after any calls that set status, content type, headers and cookies (whichever of their exceptions
the caller catches), the one head that `end` sends says the last status and content type and has, for every name
other than the server's own, exactly the lines asked for. -/
theorem C27_end {c : Cfg} (hc : CfgOk c) {s s1 : St} (fs : Fresh s) {sc : Script} (hf : Script.Fine sc)
    (hr : runScript c ((.setBaseHeader, false) :: sc) s = (.ok (), s1)) (d : Bytes) (k : Bool) (o : SendOpts) :
    ∃ s' t rest, end_ c d k o s1 = (.ok (), s') ∧ Says c (callsOf sc) true t rest ∧
      s'.log = [.head t (if bodyless c (lastStatus (callsOf sc)).1 then [] else d) o, .mark (k && s.keepalive)] := by
  obtain ⟨s', run, en, _⟩ := end_spec hc (script_inv hc fs hf hr) d k o
  obtain ⟨t, rest, hl, e⟩ := en.ex
  rw [fs.log, endBody_eq] at hl
  exact ⟨s', t, rest, run, e.says rfl rfl (fun _ _ => rfl), hl⟩

/-- The same when the head goes out with the first `write`. -/
theorem C27_write {c : Cfg} (hc : CfgOk c) {s s1 : St} (fs : Fresh s) {sc : Script} (hf : Script.Fine sc)
    (hr : runScript c ((.setBaseHeader, false) :: sc) s = (.ok (), s1)) (d : Option Bytes) (ch : Option Bool) {o : SendOpts} (ho : o.marks = true) :
    ∃ s' t rest e, write c d ch o s1 = (.ok (), s') ∧ Says c (callsOf sc) (!noBody (lastStatus (callsOf sc)).1) t rest ∧
      s'.log = [.head t [] { throttle := false }, e] ∧ isHead e = false := by
  obtain ⟨t, rest, s2, run, sl, hl, hk, hh, hch, hu⟩ := write_spec hc d ch o fs.upgraded (script_inv hc fs hf hr) (fun _ => ho)
  obtain ⟨x, ex, ox⟩ := genOwn c { chunked := ch } (callsOf sc) s.keepalive
  rw [ex] at sl
  have ⟨n1, n2, n3⟩ := own_neutral ox (callsOf sc)
  rw [run]
  rw [fs.log] at hl
  generalize (if bodyless c (lastStatus (callsOf sc)).1 then none else d) = d'
  cases d' with
  | none => exact ⟨_, t, rest, .mark s2.keepalive, writeBody_none o s2, sl.says n1 n2 n3, by rw [hl]; rfl, rfl⟩
  | some d' => exact ⟨_, t, rest, _, writeBody_some d' o s2, sl.says n1 n2 n3, by rw [hl]; rfl, rfl⟩

/-- The same for a whole request whose handler returns data: the calls are those of the request middlewares, of the route
options, of the handler and of the response middlewares. -/
theorem C27_returned {c : Cfg} (hc : CfgOk c) {a : App} (hq : ∀ m ∈ a.qms, Script.Fine m.script) (hr : ∀ m ∈ a.rms, Script.Fine m.script)
    (pq : Pass a.qms) (pr : Pass a.rms) {sc : Script} (hs : Script.Fine sc) {d : Bytes} (hh : a.handler = .coro sc (.data d)) {s s' : St} (fs : Fresh s)
    (run : serve c a s = (.ok (), s')) :
    ∃ t rest tail, s'.log = .head t [] { throttle := false } :: tail ∧ (∀ e ∈ tail, isHead e = false) ∧
      Says c (before a sc ++ mwCalls a.rms) (!noBody (lastStatus (before a sc)).1) t rest := by
  obtain ⟨t, rest, hl, sl⟩ := (returned_sent hc hq hr pq pr hs hh fs run).ex
  obtain ⟨x, ex, ox⟩ := dataOwn c a.opt (before a sc) d s.keepalive
  rw [ex] at sl
  have ⟨n1, n2, n3⟩ := own_mid ox (before a sc) (mwCalls a.rms)
  refine ⟨t, rest, dataTail c a.opt (lastStatus (before a sc)).1 d s.keepalive, by rw [hl]; rfl, ?_, sl.says n1 n2 n3⟩
  intro e he
  unfold dataTail at he
  split at he
  · simp only [List.mem_singleton] at he; subst he; rfl
  · split at he <;> simp only [List.mem_append, List.mem_cons, List.not_mem_nil, or_false, false_or] at he
    · rcases he with h | h <;> subst h <;> rfl
    · rcases he with h | h | h <;> subst h <;> rfl

/-- and for one whose handler yields. Calls made before the first non-empty value still count. -/
theorem C27_streamed {c : Cfg} (hc : CfgOk c) {a : App} (hq : ∀ m ∈ a.qms, Script.Fine m.script) (hr : ∀ m ∈ a.rms, Script.Fine m.script)
    (pq : Pass a.qms) (pr : Pass a.rms) {sc : Script} (hs : Script.Fine sc) {d : Bytes} {rest : List (Script × Bytes)} (hy : ∀ y ∈ rest, Script.Fine y.1)
    {fin : Script} (hf : Script.Fine fin) {ex : Option Exc} (hh : a.handler = .gen ((sc, d) :: rest) fin ex) {s s' : St} (fs : Fresh s)
    (run : serve c a s = (.ok (), s')) :
    ∃ t ls tail, s'.log = .head t [] { throttle := false } :: tail ∧ (∀ e ∈ tail, isHead e = false) ∧
      Says c (before a sc ++ mwCalls a.rms ++ if bodyless c (lastStatus (before a sc)).1 = false ∧ d = [] then lateCalls rest fin else [])
        (!noBody (lastStatus (before a sc)).1) t ls := by
  obtain ⟨t, ls, hl, sl⟩ := (streamed_sent hc hq hr pq pr hs hy hf hh fs run).2.ex
  obtain ⟨x, ex, ox⟩ := genOwn c a.opt (before a sc) s.keepalive
  rw [ex, List.append_assoc (before a sc ++ x)] at sl
  have ⟨n1, n2, n3⟩ := own_mid ox (before a sc) (mwCalls a.rms ++ genLate c (lastStatus (before a sc)).1 d rest fin)
  have e : before a sc ++ (mwCalls a.rms ++ genLate c (lastStatus (before a sc)).1 d rest fin) =
      before a sc ++ mwCalls a.rms ++ if bodyless c (lastStatus (before a sc)).1 = false ∧ d = [] then lateCalls rest fin else [] := by
    rw [← List.append_assoc]; congr 1
    unfold genLate
    cases bodyless c (lastStatus (before a sc)).1 <;> by_cases hd : d = [] <;> simp [hd]
  rw [e] at n1 n2 n3
  refine ⟨t, ls, genTail c a.opt (lastStatus (before a sc)).1 (d :: rest.map (·.2)) (genKeep c a.opt (before a sc) s.keepalive), by rw [hl]; rfl, ?_, sl.says n1 n2 n3⟩
  intro e he
  unfold genTail at he
  split at he
  · simp only [List.mem_singleton] at he; subst he; rfl
  · simp only [List.mem_append, List.mem_cons, List.not_mem_nil, or_false, bodies, List.mem_map] at he
    rcases he with ⟨_, _, h⟩ | h | h <;> subst h <;> rfl

/-- and for one answered by a request middleware. -/
theorem C27_middleware {c : Cfg} (hc : CfgOk c) {a : App} (hq : ∀ m ∈ a.qms, Script.Fine m.script) {pre post : List Mw} {m : Mw} {d : Bytes}
    (hm : a.qms = pre ++ m :: post) (pp : Pass pre) (hd : m.ret = .data d) {s s' : St} (fs : Fresh s) (run : serve c a s = (.ok (), s')) :
    ∃ t rest, Says c (mwCalls pre ++ callsOf m.script ++ optCalls m.status m.ctype) true t rest ∧
      s'.log = [.head t 
        (if bodyless c (lastStatus (mwCalls pre ++ callsOf m.script ++ optCalls m.status m.ctype)).1 then [] else d) { throttle := false }, .mark s.keepalive] := by
  obtain ⟨t, rest, hl, e⟩ := (mw_ended hc hq hm pp hd fs run).ex
  rw [endBody_eq] at hl
  exact ⟨t, rest, e.says rfl rfl (fun _ _ => rfl), hl⟩

/-- A handler that sets a header twice, one of them refused and the exception caught. -/
example : (handleRequest { date := b!"D", server := b!"S" } { opt := { status := some (201, b!"Created") }, handler := .coro [(.setHeader b!"X" b!"1", false),
    (.setHeader b!"X" b!"2\n", true), (.setContentType b!"text/plain", false), (.setStatus 202 b!"Accepted", false), (.setCookie b!"a=b", false)] (.data b!"hi") } {}).log.head? =
    some (.head b!"HTTP/1.1 202 Accepted\r\nDate: D\r\nServer: S\r\nX: 1\r\nSet-Cookie: a=b\r\nContent-Type: text/plain\r\nTransfer-Encoding: chunked\r\nConnection: close\r\n\r\n"
      [] { throttle := false }) := by decide +kernel
/-- The same calls before `end`, and in a generator whose first value is empty. -/
example : ((runScript { date := b!"D", server := b!"S" } [(.setBaseHeader, false), (.setStatus 404 b!"Not Found", false), (.setHeader b!"Content-Type" b!"a/b", false),
      (.end_ b!"x" true {}, false)] {}).2.log.head?) =
    some (.head b!"HTTP/1.1 404 Not Found\r\nContent-Type: a/b\r\nContent-Length: 1\r\nConnection: close\r\nDate: D\r\nServer: S\r\n\r\n" b!"x" {}) := by decide +kernel
example : ((handleRequest { date := b!"D", server := b!"S" } { handler := .gen [([], []), ([(.setStatus 202 b!"Accepted", false)], b!"x")] [] none } { keepalive := true }).log) =
    [.head b!"HTTP/1.1 202 Accepted\r\nDate: D\r\nServer: S\r\nContent-Type: text/html; charset=utf-8\r\nTransfer-Encoding: chunked\r\nConnection: keep-alive\r\n\r\n"
      [] { throttle := false }, .body b!"1\r\nx\r\n" {}, .body b!"0\r\n\r\n" { throttle := false }, .mark true] := by decide +kernel

/-! ## C21 -/

theorem bodyBytes_append (a b : List Emit) : bodyBytes (a ++ b) = bodyBytes a ++ bodyBytes b := by
  induction a with
  | nil => rfl
  | cons x t ih => cases x <;> simp [bodyBytes, ih]
theorem marks_append (a b : List Emit) : marks (a ++ b) = marks a ++ marks b := by
  induction a with
  | nil => rfl
  | cons x t ih => cases x <;> simp [marks, ih]

theorem wire_closed {log : List Emit} (h : ∀ e ∈ log, SendOp.Ok e.op) (k : Bool) : wire (log ++ [.mark k]) = asked (log.map Emit.op) ++ [none] := by
  unfold wire
  rw [List.map_append]
  exact (C24_closed (log.map Emit.op) (fun op ho => by
    obtain ⟨e, he, rfl⟩ := List.mem_map.1 ho; exact h e he)).1

/-- The value is the shortest decimal numeral of the length. -/
theorem length_line {rest : List Bytes} {n : Nat} (h : named kCL rest = [line b!"Content-Length" (fmtNat n)]) :
    ∃ v, named b!"content-length" rest = [b!"Content-Length: " ++ v] ∧ Spec.Head.Canonical v ∧ Spec.Head.valueOf v = n :=
  ⟨_, h, Proofs.Numeral.canonical_fmtNat n, Proofs.Numeral.valueOf_fmtNat n⟩

/-- **C21**, for `end` and for a middleware that returns data (which ends with `end`): there is exactly one
Content-Length, it is the decimal length of the data, and the bytes behind the head are the data, or none for HEAD and
statuses without body. -/
theorem C21_end {c : Cfg} (hc : CfgOk c) {s s1 : St} (fs : Fresh s) {sc : Script} (hf : Script.Fine sc)
    (hr : runScript c ((.setBaseHeader, false) :: sc) s = (.ok (), s1)) (d : Bytes) (k : Bool) {o : SendOpts} (ho : o.throttle = true → 0 < o.bufferSize) :
    ∃ s' t rest v, end_ c d k o s1 = (.ok (), s') ∧ HeadIs t (statusLine c (lastStatus (callsOf sc))) rest ∧
      named b!"content-length" rest = [b!"Content-Length: " ++ v] ∧ Spec.Head.Canonical v ∧ Spec.Head.valueOf v = d.length ∧
      named b!"transfer-encoding" rest = [] ∧
      wire s'.log = (t ++ if bodyless c (lastStatus (callsOf sc)).1 then [] else d).map some ++ [none] := by
  obtain ⟨s', run, en, _⟩ := end_spec hc (script_inv hc fs hf hr) d k o
  obtain ⟨t, rest, hl, e⟩ := en.ex
  obtain ⟨v, h1, h2, h3⟩ := length_line e.clen
  refine ⟨s', t, rest, v, run, e.is, h1, h2, h3, e.te, ?_⟩
  rw [fs.log, endBody_eq] at hl
  rw [hl]
  have := wire_closed (log := [.head t (if bodyless c (lastStatus (callsOf sc)).1 then [] else d) o]) (by simpa [Emit.op, SendOp.Ok] using ho) (k && s.keepalive)
  simpa [Emit.op, asked] using this

theorem C21_middleware {c : Cfg} (hc : CfgOk c) {a : App} (hq : ∀ m ∈ a.qms, Script.Fine m.script) {pre post : List Mw} {m : Mw} {d : Bytes}
    (hm : a.qms = pre ++ m :: post) (pp : Pass pre) (hd : m.ret = .data d) {s s' : St} (fs : Fresh s) (run : serve c a s = (.ok (), s')) :
    ∃ t rest v, named b!"content-length" rest = [b!"Content-Length: " ++ v] ∧ Spec.Head.Canonical v ∧ Spec.Head.valueOf v = d.length ∧
      named b!"transfer-encoding" rest = [] ∧
      HeadIs t (statusLine c (lastStatus (mwCalls pre ++ callsOf m.script ++ optCalls m.status m.ctype))) rest ∧
      wire s'.log = (t ++ if bodyless c (lastStatus (mwCalls pre ++ callsOf m.script ++ optCalls m.status m.ctype)).1 then [] else d).map some ++ [none] := by
  obtain ⟨t, rest, hl, e⟩ := (mw_ended hc hq hm pp hd fs run).ex
  obtain ⟨v, h1, h2, h3⟩ := length_line e.clen
  refine ⟨t, rest, v, h1, h2, h3, e.te, e.is, ?_⟩
  rw [endBody_eq] at hl
  rw [hl]
  have := wire_closed (log := [.head t (if bodyless c (lastStatus (mwCalls pre ++ callsOf m.script ++ optCalls m.status m.ctype)).1 then [] else d) { throttle := false }])
    (by simp [Emit.op, SendOp.Ok]) s.keepalive
  simpa [Emit.op, asked] using this

/-- and for a returned body that is not chunked, unless a response middleware sets its own Content-Length. -/
theorem C21_returned {c : Cfg} (hc : CfgOk c) {a : App} (hq : ∀ m ∈ a.qms, Script.Fine m.script) (hr : ∀ m ∈ a.rms, Script.Fine m.script)
    (pq : Pass a.qms) (pr : Pass a.rms) {sc : Script} (hs : Script.Fine sc) {d : Bytes} (hh : a.handler = .coro sc (.data d)) {s s' : St} (fs : Fresh s)
    (run : serve c a s = (.ok (), s')) (hb : 0 < a.opt.bufferSize) (nc : noBody (lastStatus (before a sc)).1 = false)
    (uc : wantsChunked c a.opt (lastStatus (before a sc)).1 = false) (un : ∀ x ∈ mwCalls a.rms, touches b!"content-length" x = false) :
    ∃ t rest v, HeadIs t (statusLine c (lastStatus (before a sc ++ mwCalls a.rms))) rest ∧
      named b!"content-length" rest = [b!"Content-Length: " ++ v] ∧ Spec.Head.Canonical v ∧ Spec.Head.valueOf v = d.length ∧
      wire s'.log = (t ++ if c.method = b!"HEAD" then [] else d).map some ++ [none] := by
  obtain ⟨t, rest, hl, sl⟩ := (returned_sent hc hq hr pq pr hs hh fs run).ex
  have hcl : named kCL rest = [line b!"Content-Length" (fmtNat d.length)] := by
    have := sl.lines kCL (by decide)
    rw [untouched_snoc un, data_cl c a.opt _ d _ nc uc] at this
    exact this
  obtain ⟨v, h1, h2, h3⟩ := length_line hcl
  obtain ⟨x, ex, ox⟩ := dataOwn c a.opt (before a sc) d s.keepalive
  rw [ex] at sl
  have ⟨n1, n2, n3⟩ := own_mid ox (before a sc) (mwCalls a.rms)
  refine ⟨t, rest, v, n1 ▸ sl.is, h1, h2, h3, ?_⟩
  rw [hl]
  unfold dataTail
  by_cases hm : c.method = b!"HEAD"
  · rw [if_pos (by simp [bodyless, hm]), if_pos hm]
    have := wire_closed (log := [.head t [] { throttle := false }]) (by simp [Emit.op, SendOp.Ok]) s.keepalive
    simpa [Emit.op, asked] using this
  · rw [show bodyless c (lastStatus (before a sc)).1 = false by unfold bodyless; rw [nc, decide_eq_false hm]; rfl, if_neg Bool.false_ne_true, if_neg hm, uc]
    have := wire_closed (log := [.head t [] { throttle := false }] ++ (if d = [] then [] else [.body (framed false d) { bufferSize := a.opt.bufferSize }]) ++
      [.body (framed false []) { throttle := false }]) (by
        intro e he
        simp only [List.mem_append, List.mem_singleton] at he
        rcases he with (h | h) | h
        · subst h; simp [Emit.op, SendOp.Ok]
        · split at h
          · cases h
          · simp only [List.mem_singleton] at h; subst h; simpa [Emit.op, SendOp.Ok] using hb
        · subst h; simp [Emit.op, SendOp.Ok]) s.keepalive
    by_cases hd : d = []
    · subst hd
      simpa [Emit.op, asked, framed] using this
    · simpa [Emit.op, asked, framed, hd] using this

/-- The hypotheses on a concrete request: HTTP/1.0, so no chunks; an empty and a non-empty body. -/
example : bodyBytes (handleRequest { version := b!"1.0" } { handler := .coro [] (.data b!"hello"), rms := [{ script := [(.setHeader b!"X" b!"y", false)] }] } {}).log = b!"hello" ∧
    (handleRequest { version := b!"1.0" } { handler := .coro [] (.data b!"hello") } {}).log.head? =
      some (.head b!"HTTP/1.0 200 OK\r\nDate: \r\nServer: \r\nContent-Type: text/html; charset=utf-8\r\nContent-Length: 5\r\nConnection: close\r\n\r\n" [] { throttle := false }) ∧
    (handleRequest { version := b!"1.0", method := b!"HEAD" } { handler := .coro [] (.data b!"hello") } {}).log =
      [.head b!"HTTP/1.0 200 OK\r\nDate: \r\nServer: \r\nContent-Type: text/html; charset=utf-8\r\nContent-Length: 5\r\nConnection: close\r\n\r\n" [] { throttle := false },
        .mark false] := by decide +kernel

/-! ## C20 -/

/-- The chunk of one piece. -/
def chunkOf (d : Bytes) : Spec.Body.Chunk := ⟨fmtHex d.length, [], d⟩

theorem chunkOf_wf {d : Bytes} (h : d ≠ []) : (chunkOf d).Wf := by
  obtain ⟨h1, h2, h3⟩ := fmtHex_spec d.length
  exact ⟨⟨h1, h2, h3, by simp [chunkOf], .inl rfl⟩, h⟩

theorem asked_bodies (o : SendOpts) (ds : List Bytes) (rest : Bytes) :
    asked ((bodies true o ds).map Emit.op) ++ rest.map some = (Spec.Body.encode ((ds.filter (· ≠ [])).map chunkOf) rest).map some := by
  induction ds with
  | nil => rfl
  | cons d t ih =>
    by_cases hd : d = []
    · simpa [bodies, hd] using ih
    · have e : bodies true o (d :: t) = .body (framed true d) o :: bodies true o t := by simp [bodies, hd]
      have e' : (d :: t).filter (· ≠ []) = d :: t.filter (· ≠ []) := by simp [hd]
      rw [e, e', List.map_cons, List.map_cons, Spec.Body.encode]
      simp only [Emit.op, asked, framed, if_true, List.append_assoc, ih, chunkOf, List.map_append, List.nil_append]

theorem payload_chunks (ds : List Bytes) : Spec.Body.payload ((ds.filter (· ≠ [])).map chunkOf) = ds.flatten := by
  induction ds with
  | nil => rfl
  | cons d t ih =>
    by_cases hd : d = []
    · simpa [hd] using ih
    · simp only [ne_eq, hd, not_false_eq_true, decide_true, List.filter_cons_of_pos, List.map_cons, Spec.Body.payload, List.flatten_cons] at ih ⊢
      rw [ih]; rfl

theorem last_frame : framed true [] = Spec.Body.lastChunk b!"0" [] CRLF := by decide +kernel

/-- **C20**: when a generator's values are sent chunked, what goes to the client is the head, the chunks of the non-empty
values and one last chunk, then the end marker; the payload is the concatenation of the values. All buffering options. -/
theorem C20_streamed {c : Cfg} (hc : CfgOk c) {a : App} (hq : ∀ m ∈ a.qms, Script.Fine m.script) (hr : ∀ m ∈ a.rms, Script.Fine m.script)
    (pq : Pass a.qms) (pr : Pass a.rms) {sc : Script} (hs : Script.Fine sc) {d : Bytes} {rest : List (Script × Bytes)} (hy : ∀ y ∈ rest, Script.Fine y.1)
    {fin : Script} (hf : Script.Fine fin) {ex : Option Exc} (hh : a.handler = .gen ((sc, d) :: rest) fin ex) {s s' : St} (fs : Fresh s)
    (run : serve c a s = (.ok (), s')) (hb : 0 < a.opt.bufferSize) (nb : bodyless c (lastStatus (before a sc)).1 = false)
    (wc : wantsChunked c a.opt (lastStatus (before a sc)).1 = true) :
    ∃ t ls cs, (∀ x ∈ cs, x.Wf) ∧ Spec.Body.payload cs = (d :: rest.map (·.2)).flatten ∧ (∃ first, HeadIs t first ls) ∧
      ((∀ x ∈ mwCalls a.rms ++ lateCalls rest fin, touches b!"transfer-encoding" x = false) → named b!"transfer-encoding" ls = [b!"Transfer-Encoding: chunked"]) ∧
      wire s'.log = (t ++ Spec.Body.encode cs (Spec.Body.lastChunk b!"0" [] CRLF)).map some ++ [none] := by
  obtain ⟨t, ls, hl, sl⟩ := (streamed_sent hc hq hr pq pr hs hy hf hh fs run).2.ex
  refine ⟨t, ls, ((d :: rest.map (·.2)).filter (· ≠ [])).map chunkOf, ?_, payload_chunks _, ⟨_, sl.is⟩, fun un => ?_, ?_⟩
  · intro x hx
    obtain ⟨y, hy, rfl⟩ := List.mem_map.1 hx
    exact chunkOf_wf (by simpa using (List.mem_filter.1 hy).2)
  · have := sl.lines kTE (by decide)
    rw [List.append_assoc, untouched_snoc (fun x hx => un x ?_), gen_te c a.opt _ _ wc] at this
    · exact this
    · rcases List.mem_append.1 hx with h | h
      · exact List.mem_append_left _ h
      · unfold genLate at h
        rw [nb] at h
        simp only [Bool.false_eq_true, if_false] at h
        split at h
        · exact List.mem_append_right _ h
        · cases h
  · rw [hl]
    unfold genTail
    rw [nb, wc]
    simp only [Bool.false_eq_true, if_false]
    have := wire_closed (log := [.head t [] { throttle := false }] ++ (bodies true a.opt.sendOpts (d :: rest.map (·.2)) ++
      [.body (framed true []) (lastOpts a.opt.sendOpts)])) (by
        intro e he
        simp only [List.mem_append, List.mem_singleton] at he
        rcases he with h | h | h
        · subst h; simp [Emit.op, SendOp.Ok]
        · obtain ⟨y, _, rfl⟩ := List.mem_map.1 h; exact fun _ => hb
        · subst h; simp [Emit.op, SendOp.Ok, lastOpts]) (genKeep c a.opt (before a sc) s.keepalive)
    simp only [List.append_assoc, List.cons_append, List.nil_append] at this ⊢
    rw [this]
    simp only [List.map_cons, List.map_append, asked, Emit.op, List.append_nil, asked_append, List.map_nil, List.append_assoc]
    rw [← last_frame, ← asked_bodies a.opt.sendOpts]
    simp

/-- The same for a returned body that is sent chunked (the default for HTTP/1.1). -/
theorem C20_returned {c : Cfg} (hc : CfgOk c) {a : App} (hq : ∀ m ∈ a.qms, Script.Fine m.script) (hr : ∀ m ∈ a.rms, Script.Fine m.script)
    (pq : Pass a.qms) (pr : Pass a.rms) {sc : Script} (hs : Script.Fine sc) {d : Bytes} (hh : a.handler = .coro sc (.data d)) {s s' : St} (fs : Fresh s)
    (run : serve c a s = (.ok (), s')) (hb : 0 < a.opt.bufferSize) (nb : bodyless c (lastStatus (before a sc)).1 = false)
    (wc : wantsChunked c a.opt (lastStatus (before a sc)).1 = true) :
    ∃ t ls cs, (∀ x ∈ cs, x.Wf) ∧ Spec.Body.payload cs = d ∧ (∃ first, HeadIs t first ls) ∧
      ((∀ x ∈ mwCalls a.rms, touches b!"transfer-encoding" x = false) → named b!"transfer-encoding" ls = [b!"Transfer-Encoding: chunked"]) ∧
      wire s'.log = (t ++ Spec.Body.encode cs (Spec.Body.lastChunk b!"0" [] CRLF)).map some ++ [none] := by
  obtain ⟨t, ls, hl, sl⟩ := (returned_sent hc hq hr pq pr hs hh fs run).ex
  refine ⟨t, ls, ([d].filter (· ≠ [])).map chunkOf, ?_, by simpa using payload_chunks [d], ⟨_, sl.is⟩, fun un => ?_, ?_⟩
  · intro x hx
    obtain ⟨y, hy, rfl⟩ := List.mem_map.1 hx
    exact chunkOf_wf (by simpa using (List.mem_filter.1 hy).2)
  · have := sl.lines kTE (by decide)
    rw [untouched_snoc un, data_te c a.opt _ d _ wc] at this
    exact this
  · rw [hl]
    unfold dataTail
    rw [nb, wc]
    simp only [Bool.false_eq_true, if_false]
    have hbd : (if d = [] then [] else [Emit.body (framed true d) { bufferSize := a.opt.bufferSize }]) = bodies true { bufferSize := a.opt.bufferSize } [d] := by
      by_cases hd : d = [] <;> simp [bodies, hd]
    rw [hbd]
    have := wire_closed (log := [.head t [] { throttle := false }] ++ (bodies true { bufferSize := a.opt.bufferSize } [d] ++
      [.body (framed true []) { throttle := false }])) (by
        intro e he
        simp only [List.mem_append, List.mem_singleton] at he
        rcases he with h | h | h
        · subst h; simp [Emit.op, SendOp.Ok]
        · obtain ⟨y, _, rfl⟩ := List.mem_map.1 h; exact fun _ => hb
        · subst h; simp [Emit.op, SendOp.Ok]) s.keepalive
    simp only [List.append_assoc, List.cons_append, List.nil_append] at this ⊢
    rw [this]
    simp only [List.map_cons, List.map_append, asked, Emit.op, List.append_nil, asked_append, List.map_nil, List.append_assoc]
    rw [← last_frame, ← asked_bodies { bufferSize := a.opt.bufferSize }]
    simp

/-- Empty values in the middle, a buffered generator (`stream=False`), a piece longer than 15 bytes. -/
example : (wire (handleRequest {} { opt := { stream := false, bufferSize := 8 }, handler := .gen [([], []), ([], b!"ab"), ([], []), ([], b!"0123456789abcdefg")] [] none } {}).log).drop 0 =
    (match (handleRequest {} { opt := { stream := false, bufferSize := 8 }, handler := .gen [([], []), ([], b!"ab"), ([], []), ([], b!"0123456789abcdefg")] [] none } {}).log with
      | .head t _ _ :: _ => (t ++ b!"2\r\nab\r\n11\r\n0123456789abcdefg\r\n0\r\n\r\n").map some ++ [none]
      | _ => []) := by decide +kernel

end Verif
