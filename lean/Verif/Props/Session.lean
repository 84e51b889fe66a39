import Verif.Proofs.Session
import Verif.Model.Response
/-!
# C94, C95: the objects that functions of the application are given, and the hooks of a connection
-/
namespace Verif
open Model.App (Opts HookRet Ret)
open Py Model.HttpParser Model.Session Spec.Session Proofs.Session

variable {V : Type}

namespace Proofs.Session

theorem ok_of {c : Cfg V} {es : List (Ev V)} {pre post : List (Call V)} {x : Call V} (h : (run c es).trace = pre ++ x :: post) : Ok c pre x :=
  (inv_run c es).1.each _ _ _ h

/-- How a call is made does not depend on what it is: the objects are those of the latest requests that have them. -/
theorem fits_of {c : Cfg V} {es : List (Ev V)} {pre post : List (Call V)} {x : Call V} {w e : Option Nat}
    (h : (run c es).trace = pre ++ x :: post) (hg : given x = some (w, e)) : Fits c (pre ++ [x]) w e := by
  obtain ⟨-, -, h3⟩ := ok_of h
  cases x <;> first | (cases hg; done) | skip
  · cases hg; exact fits_other rfl h3
  · cases hg; exact h3.1
  · cases hg; exact fits_other rfl h3
  · cases hg; exact fits_other rfl h3.2.2.2

end Proofs.Session

/-! ## C94 -/

/-- **C94 (exactly).** In every schedule of a connection, a middleware, handler or close hook is given the WebSocket object of the latest request so
far whose handler was called for a handshake on a WebSocket route, and the SSE object of the latest one called without a body on a
route for events; none if there is no such request. -/
theorem C94_exact (c : Cfg V) (es : List (Ev V)) {pre post : List (Call V)} {x : Call V} {w e : Option Nat}
    (h : (run c es).trace = pre ++ x :: post) (hg : given x = some (w, e)) :
    Latest (WsFor c (pre ++ [x])) w ∧ Latest (SseFor (pre ++ [x])) e :=
  fits_of h hg

/-- **C94 (partial: requests that have an object of their own).** A handler that is called for a handshake on a WebSocket route gets the WebSocket
object of its request, one that is called without a body on a route for events gets the SSE object of its request. -/
theorem C94_own_partial (c : Cfg V) (es : List (Ev V)) {pre post : List (Call V)} {n : Nat} {q : Req V} {o : Opts V} {w e : Option Nat}
    (h : (run c es).trace = pre ++ .handler n q o w e :: post) :
    (c.ws = true → Handshake q → Dict.get o b!"websocket" ≠ none → w = some n) ∧
    (q.hasBody = false → Dict.get o b!"sse" ≠ none → e = some n) := by
  obtain ⟨h1, h2⟩ := fits_of h rfl
  obtain ⟨-, -, -, hlt⟩ := ok_of h
  constructor
  · intro a b d
    have hn : WsFor c (pre ++ [.handler n q o w e]) n := ⟨q, o, w, e, by simp, a, b, d⟩
    cases w with
    | none => exact absurd hn (h1 n)
    | some m =>
      have hm := h1.2 n hn
      obtain ⟨q', o', w', e', hmem, -⟩ := h1.1
      rcases List.mem_append.1 hmem with hmem | hmem
      · have := hlt _ _ _ _ _ hmem; omega
      · cases List.mem_singleton.1 hmem; rfl
  · intro a b
    have hn : SseFor (pre ++ [.handler n q o w e]) n := ⟨q, o, w, e, by simp, a, b⟩
    cases e with
    | none => exact absurd hn (h2 n)
    | some m =>
      have hm := h2.2 n hn
      obtain ⟨q', o', w', e', hmem, -⟩ := h2.1
      rcases List.mem_append.1 hmem with hmem | hmem
      · have := hlt _ _ _ _ _ hmem; omega
      · cases List.mem_singleton.1 hmem; rfl

/-- **C94 (partial: connections without earlier objects).** If no earlier request of the connection had one, a handler gets a WebSocket object exactly
for a handshake on a WebSocket route, and an SSE object exactly for a request without a body on a route for events. -/
theorem C94_first_partial (c : Cfg V) (es : List (Ev V)) {pre post : List (Call V)} {n : Nat} {q : Req V} {o : Opts V} {w e : Option Nat}
    (h : (run c es).trace = pre ++ .handler n q o w e :: post) :
    ((∀ k, ¬ WsFor c pre k) → (w ≠ none ↔ c.ws = true ∧ Handshake q ∧ Dict.get o b!"websocket" ≠ none)) ∧
    ((∀ k, ¬ SseFor pre k) → (e ≠ none ↔ q.hasBody = false ∧ Dict.get o b!"sse" ≠ none)) := by
  obtain ⟨h1, h2⟩ := fits_of h rfl
  obtain ⟨k1, k2⟩ := C94_own_partial c es h
  constructor
  · intro hn
    constructor
    · intro hw
      cases w with
      | none => exact absurd rfl hw
      | some m =>
        rcases (wsFor_snoc ..).1 h1.1 with h | ⟨_, _, _, _, he, hh⟩
        · exact absurd h (hn m)
        · cases he; exact hh
    · rintro ⟨a, b, d⟩; rw [k1 a b d]; simp
  · intro hn
    constructor
    · intro hw
      cases e with
      | none => exact absurd rfl hw
      | some m =>
        rcases (sseFor_snoc ..).1 h2.1 with h | ⟨_, _, _, _, he, hh⟩
        · exact absurd h (hn m)
        · cases he; exact hh
    · rintro ⟨a, b⟩; rw [k2 a b]; simp

/-- **C94 (order).** The calls for requests come in the order of the requests, and the handler of a request is called at most once. -/
theorem C94_order (c : Cfg V) (es : List (Ev V)) {pre post : List (Call V)} {x : Call V} {n : Nat}
    (h : (run c es).trace = pre ++ x :: post) (hx : ofRequest x = some n) :
    (∀ y ∈ pre, ∀ m, ofRequest y = some m → m ≤ n) ∧
    (∀ q o w e, x = .handler n q o w e → ∀ y ∈ pre, ∀ m q o w e, y = .handler m q o w e → m < n) := by
  obtain ⟨h1, h2, h3⟩ := ok_of h
  refine ⟨(h2 n hx).2, ?_⟩
  rintro q o w e rfl y hy m q' o' w' e' rfl
  exact h3.2 _ _ _ _ _ hy

namespace Session

/-- A server with one connect hook, one close hook and a request middleware. -/
def cfg : Cfg Nat := { connect := 1, close := 1, qms := [[]], rms := [], ws := true }

def upgrade : HDict :=
  [(b!"upgrade", .one b!"WebSocket"), (b!"connection", .one b!"Upgrade"), (b!"sec-websocket-key", .one b!"dGhlIHNhbXBsZSBub25jZQ==")]

/-- A handshake and an ordinary request for a WebSocket route; an ordinary request and one with a body for a route for events. -/
def wsReq : Req Nat := { headers := upgrade, hasBody := false, route := [(b!"websocket", 0)] }
def plainReq : Req Nat := { headers := [], hasBody := false, route := [(b!"websocket", 0)] }
def sseReq : Req Nat := { headers := [], hasBody := false, route := [(b!"sse", 0)] }
def postReq : Req Nat := { headers := [], hasBody := true, route := [(b!"sse", 0)] }

/-- A request from its head to its response. -/
def whole (q : Req Nat) : List (Ev Nat) := [.head q, .go, .go, .ret .none, .go, .ret .body, .go]

/-- What the handlers were given. -/
def gets (t : List (Call Nat)) : List (Nat × Option Nat × Option Nat) := t.filterMap (fun | .handler n _ _ w e => some (n, w, e) | _ => none)

end Session
open Session

theorem Session.wsReq_handshake : Handshake wsReq := ⟨rfl, ⟨b!"WebSocket", by decide, by decide⟩, by decide, by decide⟩

example : gets (run cfg ([.hookCall, .hookRet .falsy] ++ whole wsReq ++ whole sseReq)).trace = [(0, some 0, none), (1, some 0, some 1)] := by
  decide +kernel

/-- **C94 refuted: a handler is given the WebSocket object of another request.** The handler answers the handshake with an ordinary response (say
403), and the connection is kept. The next request is no handshake, but its handler gets a WebSocket object: that of the
first request, whose response has ended. -/
theorem C94_refuted_websocket : gets (run cfg ([.hookCall, .hookRet .falsy] ++ whole wsReq ++ whole plainReq)).trace = [(0, some 0, none), (1, some 0, none)] ∧
    ¬ Handshake plainReq := by
  refine ⟨by decide +kernel, ?_⟩
  rintro ⟨-, ⟨v, hv, -⟩, -⟩
  simp [plainReq, hget] at hv

/-- **C94 refuted: a handler is given the SSE object of another request.** A request with a body for the same route gets the object of the request
before, and what the handler sends with it goes to the response of that request. -/
theorem C94_refuted_sse : gets (run cfg ([.hookCall, .hookRet .falsy] ++ whole sseReq ++ whole postReq)).trace = [(0, none, some 0), (1, none, some 0)] := by
  decide +kernel

/-- **C94 refuted: events without a head.** Whatever a handler writes with the SSE object of a request whose response has begun is sent as
it is, as a chunk at most, without the head of a response; this is all that the client gets for the request with the body. -/
theorem C94_refuted_wire (c : Model.Response.Cfg) (s : Model.Response.St) (h : s.headers = none) (b : Bytes) :
    ∃ b' o, (Model.Response.write c (some b) none {} s).1 = .ok () ∧ (Model.Response.write c (some b) none {} s).2.log = s.log ++ [.body b' o] := by
  cases hc : s.chunked <;> cases hu : s.upgraded <;>
    simp [Model.Response.write, Model.Response.writeBody, Model.Response.headersSent, Model.Response.get, Model.Response.emit, Model.Response.modify, bind, pure,
      Model.Response.when, h, hc, hu]

/-! ## C95 -/

/-- **C95 (connect hooks).** Connect hooks are called in the order of registration, each one after the ones before have returned false values; none is
called after one that returned a true value or raised, and none after the cleanup. -/
theorem C95_connect (c : Cfg V) (es : List (Ev V)) {pre post : List (Call V)} {i : Nat}
    (h : (run c es).trace = pre ++ .connect i :: post) :
    i < c.connect ∧ connects pre = List.range i ∧ connecteds pre = (List.range i).map (fun i => (i, .falsy)) ∧ .cleanup ∉ pre := by
  obtain ⟨h1, -, h3⟩ := ok_of h
  exact ⟨h3.1, h3.2.1, h3.2.2, h1⟩

/-- **C95 (requests wait).** Before any middleware or handler of a request is called, the connect hooks have ended: all have returned
false values, or all up to one that returned a true value. So after one that raised, or that was cancelled, no request is handled; and no connect hook
runs while one is. -/
theorem C95_before (c : Cfg V) (es : List (Ev V)) {pre post : List (Call V)} {x : Call V} {n : Nat}
    (h : (run c es).trace = pre ++ x :: post) (hx : ofRequest x = some n) :
    Connected c pre ∧ .cleanup ∉ pre ∧ connects post = [] ∧ connecteds post = [] := by
  obtain ⟨h1, h2, -⟩ := ok_of h
  have hc := (h2 n hx).1
  have key : ∀ {i : Nat} {t : List (Call V)}, i < c.connect → connects (pre ++ x :: t) = List.range i →
      connecteds (pre ++ x :: t) = (List.range i).map (fun i => (i, HookRet.falsy)) → False := by
    intro i t hi e1 e2
    rw [connecteds_append] at e2
    rw [connects_append] at e1
    rcases hc with ⟨a, -⟩ | ⟨k, hk, a, b⟩
    · have := congrArg List.length e1
      rw [a] at this
      simp at this; omega
    · have : (k, HookRet.truthy) ∈ (List.range i).map (fun i => (i, HookRet.falsy)) := by
        rw [← e2, b]; simp
      simp at this
  refine ⟨hc, h1, ?_, ?_⟩
  · refine List.filterMap_eq_nil_iff.2 (fun y hy => ?_)
    cases y <;> first | rfl | skip
    rename_i i
    obtain ⟨a, b, rfl⟩ := List.append_of_mem hy
    obtain ⟨q1, q2, q3, -⟩ := C95_connect c es (pre := pre ++ x :: a) (i := i) (post := b) (by simpa using h)
    exact (key q1 q2 q3).elim
  · refine List.filterMap_eq_nil_iff.2 (fun y hy => ?_)
    cases y <;> first | rfl | skip
    rename_i i r
    obtain ⟨a, b, rfl⟩ := List.append_of_mem hy
    obtain ⟨-, -, q1, q2, q3⟩ := ok_of (c := c) (es := es) (pre := pre ++ x :: a) (x := .connected i r) (post := b) (by simpa using h)
    rw [connecteds_append] at q3
    rw [connects_append] at q2
    rcases hc with ⟨e1, e2⟩ | ⟨k, hk, e1, e2⟩
    · have := congrArg List.length q3
      rw [e2] at this
      simp at this; omega
    · have : (k, HookRet.truthy) ∈ (List.range i).map (fun i => (i, HookRet.falsy)) := by
        rw [← q3, e2]; simp
      simp at this

namespace Proofs.Session

theorem run_snoc (c : Cfg V) (es : List (Ev V)) (e : Ev V) : run c (es ++ [e]) = step c (run c es) e := by simp [run]

theorem lost_of {c : Cfg V} {es : List (Ev V)} (h : (run c es).lost = true) : Ev.lost ∈ es := by
  induction es using snocInd with
  | h0 => simp [run, init] at h
  | h1 es e ih =>
    rw [run_snoc] at h
    by_cases hl : (run c es).lost = true
    · exact List.mem_append_left _ (ih hl)
    · refine List.mem_append_right _ ?_
      have hf : (run c es).lost = false := by simpa using hl
      cases e <;> simp only [step] at h
      case lost => simp
      all_goals
        revert h
        repeat' split
        all_goals simp [cleanup, hf]

theorem lost_stays {c : Cfg V} {s : St V} (e : Ev V) (h : s.lost = true) : (step c s e).lost = true := by
  cases e <;> simp only [step]
  all_goals
    repeat' split
    all_goals first | exact h | rfl

theorem cleaned_stays {c : Cfg V} {s : St V} (hi : Inv c s) (hl : s.lost = true) (e : Ev V) (h : s.cleaned = true) : step c s e = s := by
  rcases hi.clean with ⟨h1, -⟩ | ⟨-, h2, h3, h4⟩
  · rw [h] at h1; cases h1
  · cases e <;> simp only [step, h, h2, h3, hl, if_true]
    · rcases h4 with h4 | h4 <;> simp [h4]
    · rcases h4 with h4 | h4 <;> simp [h4]

/-- How far the close hooks are. -/
def phase : Closer → Nat
  | .none => 0
  | .todo => 1
  | .inside _ => 2
  | .done => 3

theorem phase_done {k : Closer} (h : 3 ≤ phase k) : k = .done := by
  cases k <;> simp [phase] at h ⊢

theorem phase_stays {c : Cfg V} {s : St V} (e : Ev V) (hn : s.closer = .none ↔ s.lost = false) : phase s.closer ≤ phase (step c s e).closer := by
  cases e <;> simp only [step]
  case lost =>
    split
    · exact Nat.le_refl _
    · next hl => rw [hn.2 (by simpa using hl)]; exact Nat.zero_le _
  all_goals
    repeat' split
    all_goals first | exact Nat.le_refl _ | simp_all [cleanup, phase]

theorem phase_run {c : Cfg V} (es es' : List (Ev V)) : phase (run c es).closer ≤ phase (run c (es ++ es')).closer := by
  induction es' using snocInd with
  | h0 => simp
  | h1 es' e ih =>
    rw [← List.append_assoc, run_snoc]
    exact Nat.le_trans ih (phase_stays e (inv_run c (es ++ es')).2)

theorem done_cleaned {c : Cfg V} (es : List (Ev V)) : (run c es).closer = .done ↔ (run c es).cleaned = true := by
  constructor
  · intro h
    induction es using snocInd with
    | h0 => simp [run, init] at h
    | h1 es e ih =>
      rw [run_snoc] at h ⊢
      by_cases hd : (run c es).closer = .done
      · have hi := inv_run c es
        rw [cleaned_stays hi.1 _ e (ih hd)]
        · exact ih hd
        · cases hl : (run c es).lost with
          | true => rfl
          | false => rw [hi.2.2 hl] at hd; cases hd
      · cases e <;> simp only [step] at h ⊢
        all_goals
          revert h
          repeat' split
          all_goals first | (intro h; exact absurd h hd) | (intro h; cases h; done) | (intro _; rfl)
  · intro h
    rcases (inv_run c es).1.clean with ⟨h1, -⟩ | ⟨-, -, h3, -⟩
    · rw [h] at h1; cases h1
    · exact h3

theorem cleaned_iff (c : Cfg V) (es : List (Ev V)) : (run c es).cleaned = true ↔ .cleanup ∈ (run c es).trace := by
  induction es using snocInd with
  | h0 => simp [run, init]
  | h1 es e ih =>
    rw [run_snoc]
    have hi := inv_run c es
    by_cases hd : (run c es).cleaned = true
    · rw [cleaned_stays hi.1 _ e hd]
      · exact ih
      · cases hl : (run c es).lost with
        | true => rfl
        | false => rw [← done_cleaned, hi.2.2 hl] at hd; cases hd
    · have hm : .cleanup ∉ (run c es).trace := fun h => hd (ih.2 h)
      cases e <;> simp only [step]
      all_goals
        repeat' split
        all_goals first | simp [cleanup]; done | (simp [hd, hm]; done) | (simp_all; done)

end Proofs.Session

/-- **C95 (requests are served).** If the connect hooks have ended as they should and no request is in work, the next request is taken to all request
middlewares in order as long as they return None, and then to its handler, with the options of the route and of the middlewares. -/
theorem C95_serves (c : Cfg V) (es : List (Ev V)) (hi : (run c es).stage = .idle) (hc : .cleanup ∉ (run c es).trace)
    (hcon : Connected c (run c es).trace) (q : Req V) (hq : handshake c.ws q.headers ≠ none) :
    ∃ o w e, (run c (es ++ [.head q, .go] ++ (List.replicate c.qms.length [.go, .ret .none]).flatten ++ [.go])).trace =
      (run c es).trace ++ (List.range c.qms.length).map (fun i => .middleware (run c es).reqs i (run c es).ws (run c es).sse) ++
        [.handler (run c es).reqs q o w e] ∧
      ∀ k, Dict.get o k ≠ none ↔ Dict.get q.route k ≠ none ∨ ∃ m ∈ c.qms, Dict.get m k ≠ none := by
  have inv := (inv_run c es).1
  have hcl : (run c es).cleaned = false := by
    cases hk : (run c es).cleaned with
    | false => rfl
    | true => exact absurd ((cleaned_iff c es).1 hk) hc
  have hd : (run c es).hooks = .done := Classical.byContradiction fun h => not_connected inv.hooks h hcon
  generalize hs : run c es = s at *
  have h1 : run c (es ++ [.head q, .go]) = { s with reqs := s.reqs + 1, stage := .mids q 0 [] } := by
    have : run c (es ++ [.head q, .go]) = step c (step c s (.head q)) .go := by rw [← hs]; simp [run]
    rw [this]
    simp [step, hi, hcl, hd]
  have h2 : ∀ k, k ≤ c.qms.length → ∃ o, run c (es ++ [.head q, .go] ++ (List.replicate k [.go, .ret .none]).flatten) =
      { s with reqs := s.reqs + 1, stage := .mids q k o, trace := s.trace ++ (List.range k).map (fun i => .middleware s.reqs i s.ws s.sse) } ∧
      ∀ x, Dict.get o x ≠ none ↔ ∃ m ∈ c.qms.take k, Dict.get m x ≠ none := by
    intro k
    induction k with
    | zero => intro _; exact ⟨[], by simpa using h1, by simp [Dict.get]⟩
    | succ k ih =>
      intro hk
      obtain ⟨o, ho, hx⟩ := ih (by omega)
      obtain ⟨m, hm⟩ : ∃ m, c.qms[k]? = some m := ⟨_, List.getElem?_eq_getElem (by omega)⟩
      refine ⟨Dict.merge m o, ?_, fun x => ?_⟩
      rotate_left
      · rw [Dict.get_merge, List.take_add_one, hm]
        simp only [Option.toList_some, List.mem_append, List.mem_singleton]
        rw [show ((Dict.get o x).or (Dict.get m x) ≠ none ↔ Dict.get o x ≠ none ∨ Dict.get m x ≠ none) by
          cases Dict.get o x <;> simp, hx]
        exact ⟨fun h => h.elim (fun ⟨m', h1, h2⟩ => ⟨m', .inl h1, h2⟩) (fun h => ⟨m, .inr rfl, h⟩),
          fun ⟨m', h1, h2⟩ => h1.elim (fun h1 => .inl ⟨m', h1, h2⟩) (fun h1 => .inr (h1 ▸ h2))⟩
      have e : es ++ [.head q, .go] ++ (List.replicate (k + 1) [.go, .ret .none]).flatten =
          es ++ [.head q, .go] ++ (List.replicate k [.go, .ret .none]).flatten ++ [.go] ++ [.ret .none] := by
        rw [List.replicate_succ']; simp
      rw [e, run_snoc, run_snoc, ho]
      simp [step, hm, List.range_succ]
  obtain ⟨o, ho, hx⟩ := h2 c.qms.length (Nat.le_refl _)
  rw [List.take_length] at hx
  have hob : ∃ w e, objects c s.reqs q (Dict.merge q.route o) s.ws s.sse = some (w, e) := by
    unfold objects
    split
    · exact ⟨_, _, rfl⟩
    · cases hh : handshake c.ws q.headers with
      | none => exact absurd hh hq
      | some b => cases Dict.mem (Dict.merge q.route o) b!"websocket" <;> exact ⟨_, _, rfl⟩
  obtain ⟨w, e, hob⟩ := hob
  refine ⟨Dict.merge q.route o, w, e, ?_, fun k => ?_⟩
  · rw [run_snoc, ho]
    simp [step, hob]
  · rw [Dict.get_merge, ← hx]
    cases Dict.get o k <;> simp

/-- **C95 (close hooks).** Close hooks are called from the last one registered to the first, each one after those called before have returned
false values, and only when the connection was lost. -/
theorem C95_close (c : Cfg V) (es : List (Ev V)) {pre post : List (Call V)} {i : Nat} {w e : Option Nat}
    (h : (run c es).trace = pre ++ .close i w e :: post) :
    i < c.close ∧ closes pre = lastDown c.close (c.close - 1 - i) ∧ closeds pre = (lastDown c.close (c.close - 1 - i)).map (fun i => (i, .falsy)) ∧
    .cleanup ∉ pre ∧ .lost ∈ es := by
  obtain ⟨h1, -, h3⟩ := ok_of h
  refine ⟨h3.1, h3.2.1, h3.2.2.1, h1, lost_of (c := c) ?_⟩
  cases hl : (run c es).lost with
  | true => rfl
  | false =>
    have hi := inv_run c es
    have := hi.1.closer
    rw [hi.2.2 hl] at this
    have hc := this.1
    rw [h, show pre ++ .close i w e :: post = pre ++ ([.close i w e] ++ post) from rfl, closes_append, closes_append] at hc
    simp at hc

/-- **C95 (cleanup).** The connection is cleaned up at most once, not before it was lost, and nothing is called for it afterwards. It is cleaned up at
once without close hooks; otherwise not before one was called, and at the latest when the timer of the close hooks has fired. -/
theorem C95_cleanup (c : Cfg V) (es : List (Ev V)) :
    (∀ pre post, (run c es).trace = pre ++ .cleanup :: post → post = [] ∧ .cleanup ∉ pre ∧ .lost ∈ es ∧ (c.close = 0 ∨ closes pre ≠ [])) ∧
    ((run c es).cleaned = true ↔ .cleanup ∈ (run c es).trace) ∧
    (c.close = 0 → .lost ∈ es → .cleanup ∈ (run c es).trace) ∧
    (∀ a b d f, es = a ++ .lost :: b ++ .closeCall :: d ++ .closeTimeout :: f → .cleanup ∈ (run c es).trace) := by
  have hclean := cleaned_iff c
  have hlost : ∀ es, .cleanup ∈ (run c es).trace → (.lost : Ev V) ∈ es := by
    intro es h
    apply lost_of (c := c)
    cases hl : (run c es).lost with
    | true => rfl
    | false =>
      have h1 := (inv_run c es).2.2 hl
      have h2 := (done_cleaned es).2 ((hclean es).2 h)
      rw [h1] at h2; cases h2
  refine ⟨fun pre post h => ?_, hclean es, fun hz hm => ?_, fun a b d f he => ?_⟩
  · obtain ⟨h1, -, h3⟩ := ok_of h
    refine ⟨?_, h1, hlost es (by rw [h]; simp), h3⟩
    cases post with
    | nil => rfl
    | cons y post =>
      exact absurd (by simp) (ok_of (c := c) (es := es) (pre := pre ++ [.cleanup]) (x := y) (post := post) (by simpa using h)).1
  · obtain ⟨a, b, rfl⟩ := List.append_of_mem hm
    rw [← hclean, ← done_cleaned]
    have hp := phase_run (c := c) (a ++ [.lost]) b
    have h3 : phase (run c (a ++ [.lost])).closer = 3 := by
      rw [run_snoc]
      simp only [step]
      split
      · next hl =>
        have : (run c a).closer ≠ .none := fun h => by rw [(inv_run c a).2.1 h] at hl; cases hl
        cases hk : (run c a).closer with
        | none => exact absurd hk this
        | todo => have := (inv_run c a).1.closer; rw [hk] at this; have := this.1; omega
        | inside i => have := (inv_run c a).1.closer; rw [hk] at this; have := this.1; omega
        | done => rfl
      · rfl
    rw [h3] at hp
    have e : a ++ [.lost] ++ b = a ++ .lost :: b := by simp
    rw [e] at hp
    exact phase_done hp
  · rw [← hclean, ← done_cleaned]
    subst he
    have p1 : 1 ≤ phase (run c (a ++ [.lost])).closer := by
      rw [run_snoc]
      simp only [step]
      split
      · next hl =>
        cases hk : (run c a).closer with
        | none => rw [(inv_run c a).2.1 hk] at hl; cases hl
        | todo => simp [phase]
        | inside i => simp [phase]
        | done => simp [phase]
      · split <;> simp [cleanup, phase]
    have p2 : 1 ≤ phase (run c (a ++ [.lost] ++ b)).closer := Nat.le_trans p1 (phase_run ..)
    have p3 : 2 ≤ phase (run c (a ++ [.lost] ++ b ++ [.closeCall])).closer := by
      rw [run_snoc]
      revert p2
      generalize run c (a ++ [.lost] ++ b) = s
      simp only [step]
      cases hk : s.closer <;> simp [hk, phase]
    have p4 : 2 ≤ phase (run c (a ++ [.lost] ++ b ++ [.closeCall] ++ d)).closer := Nat.le_trans p3 (phase_run ..)
    have p5 : 3 ≤ phase (run c (a ++ [.lost] ++ b ++ [.closeCall] ++ d ++ [.closeTimeout])).closer := by
      rw [run_snoc]
      revert p4
      generalize run c (a ++ [.lost] ++ b ++ [.closeCall] ++ d) = s
      simp only [step]
      cases hk : s.closer <;> simp [hk, cleanup, phase]
    have p6 := Nat.le_trans p5 (phase_run (c := c) _ f)
    have e : a ++ [.lost] ++ b ++ [.closeCall] ++ d ++ [.closeTimeout] ++ f = a ++ .lost :: b ++ .closeCall :: d ++ .closeTimeout :: f := by simp
    rw [e] at p6
    exact phase_done p6

/-- Three connect hooks of which the second returns a true value, a request, and two close hooks. -/
example : (connects (run { cfg with connect := 3, close := 2 } ([.hookCall, .hookRet .falsy, .hookRet .truthy] ++ whole sseReq ++
      [.lost, .closeCall, .closeRet .falsy, .closeRet .falsy])).trace = [0, 1]) ∧
    (closes (run { cfg with connect := 3, close := 2 } ([.hookCall, .hookRet .falsy, .hookRet .truthy] ++ whole sseReq ++
      [.lost, .closeCall, .closeRet .falsy, .closeRet .falsy])).trace = [1, 0]) ∧
    gets (run { cfg with connect := 3, close := 2 } ([.hookCall, .hookRet .falsy, .hookRet .truthy] ++ whole sseReq ++
      [.lost, .closeCall, .closeRet .falsy, .closeRet .falsy])).trace = [(0, none, some 0)] ∧
    (run { cfg with connect := 3, close := 2 } ([.hookCall, .hookRet .falsy, .hookRet .truthy] ++ whole sseReq ++
      [.lost, .closeCall, .closeRet .falsy, .closeRet .falsy])).cleaned = true := by decide +kernel

/-- A request that comes while the connect hook runs waits for it, and is not handled if it raises. -/
example : gets (run cfg ([.hookCall] ++ whole sseReq)).trace = [] ∧ gets (run cfg ([.hookCall, .head sseReq, .go, .hookRet .falsy, .go, .go, .ret .none, .go])).trace = [(0, none, some 0)] ∧
    gets (run cfg ([.hookCall, .head sseReq, .go, .hookRet .raises] ++ whole sseReq ++ whole sseReq)).trace = [] := by decide +kernel

/-- **C95 refuted: close hooks run beside connect hooks.** If the client is gone before the connect hook has ended, the close hook is
called while the connect hook still runs. -/
theorem C95_refuted_overlap : connects (run cfg [.hookCall, .lost, .closeCall]).trace = [0] ∧ closes (run cfg [.hookCall, .lost, .closeCall]).trace = [0] ∧
    connecteds (run cfg [.hookCall, .lost, .closeCall]).trace = [] := by decide +kernel

/-- **C95 refuted: a handler is called after a close hook.** The tasks of the connection are cancelled only when the close hooks have ended; until then
a request that was received before is taken to its handler. -/
theorem C95_refuted_late : gets (run cfg ([.hookCall, .hookRet .falsy, .lost, .closeCall])).trace = [] ∧
    gets (run cfg ([.hookCall, .hookRet .falsy, .lost, .closeCall] ++ whole sseReq)).trace = [(0, none, some 0)] ∧
    gets (run cfg ([.hookCall, .hookRet .falsy, .head sseReq, .lost, .closeCall, .go, .go, .ret .none, .go])).trace = [(0, none, some 0)] := by decide +kernel

end Verif
