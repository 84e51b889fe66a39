import Verif.Proofs.ConnSocket
/-!
# C81: WebSocket sessions and interim responses on a connection
-/
namespace Verif
open Verif.Py Verif.Model.Conn Conn Solo

namespace Solo

/-- A segment that can be queued, or queued further. -/
def ready (s : St) (i : Nat) : Prop := (∃ f, s.recvs[i]? = some (.feeding f)) ∨ ∃ d w, s.recvs[i]? = some (.waiting d w) ∧ waited s w = true

def cost : RTask → Nat
  | .waiting d _ => d.length + 2
  | .feeding f => f.rest.length + 1
  | .done => 0

/-- What is left to do for the segments received. -/
def work (s : St) : Nat := (s.recvs.map cost).sum

theorem sum_set {l : List RTask} {i : Nat} {x y : RTask} (h : l[i]? = some x) : ((l.set i y).map cost).sum + cost x = (l.map cost).sum + cost y := by
  induction l generalizing i with
  | nil => simp at h
  | cons a l ih =>
    cases i with
    | zero => simp at h; subst h; simp; omega
    | succ i => have := ih (i := i) (by simpa using h); simp only [List.set_cons_succ, List.map_cons, List.sum_cons]; omega

theorem work_fed {c : Cfg} {bs i : Nat} {f : Feed} {x : RTask} {s : St} (hx : s.recvs[i]? = some x) (hb : 0 < bs) (hc : f.rest = [] ∧ 0 < cost x ∨ (f.rest.drop bs).length + 1 < cost x) :
    (recvFed i (feed c bs f s)).noWrite = true ∨ work (recvFed i (feed c bs f s)) < work s := by
  unfold feed
  split
  · right
    simp only [recvFed, work, (soft_account c f.size s).recvs]
    have := sum_set (y := .done) hx
    rw [show cost .done = 0 from rfl] at this
    have : 0 < cost x := by rcases hc with hc | hc <;> omega
    omega
  · next hr =>
    dsimp only
    split
    · exact .inl rfl
    · right
      have hc := hc.resolve_left (fun h => hr h.1)
      simp only [recvFed, work, put0]
      have := sum_set (y := .feeding { f with rest := f.rest.drop bs }) hx
      rw [show cost (.feeding { f with rest := f.rest.drop bs }) = (f.rest.drop bs).length + 1 from rfl] at this
      omega

/-- Some unfinished segment can be queued further. -/
theorem some_ready {s : St} (hf : s.futDone[0]? = some true)
    (older : ∀ (i : Nat) d w, s.recvs[i]? = some (.waiting d w) → Older i w) {i : Nat} (hn : i < s.recvs.length) (hx : s.recvs[i]? ≠ some .done) : ∃ i, ready s i := by
  induction i using Nat.strongRecOn with
  | _ i ih =>
    by_cases hp : ∀ j, j < i → s.recvs[j]? = some .done
    · refine ⟨i, ?_⟩
      rw [List.getElem?_eq_getElem hn] at hx
      cases hr : s.recvs[i] with
      | done => rw [hr] at hx; exact absurd rfl hx
      | feeding f => left; exact ⟨f, by rw [List.getElem?_eq_getElem hn, hr]⟩
      | waiting d w =>
        right
        have hi : s.recvs[i]? = some (.waiting d w) := by rw [List.getElem?_eq_getElem hn, hr]
        refine ⟨d, w, hi, ?_⟩
        have := older i d w hi
        cases w with
        | fut g => have h0 : g = 0 := this
                   subst h0; simp [waited, hf]
        | task j => simp [waited, hp j this]
    · rw [Classical.not_forall] at hp
      obtain ⟨j, hj⟩ := hp
      rw [Classical.not_imp] at hj
      exact ih j hj.1 (by omega) hj.2

theorem close_closes {s : St} (h : s.closing = false) : (close s).closing = true ∧ (close s).noWrite = true := by
  unfold close; rw [h]; exact ⟨rfl, rfl⟩

theorem keep_kept {c : Cfg} {k : Nat} {r : Rq} {s : St} (hc : s.closing = false) (hf : s.first = false) (hu : r.upgraded = true) (hx : r.req.httpContinue = false) :
    (handleKeepalive c k r s).closing = true ∧ (handleKeepalive c k r s).noWrite = true := by
  have hc0 : ({ s with registered := s.registered || s.first } : St).closing = false := hc
  unfold handleKeepalive
  dsimp only
  split
  · exact close_closes hc0
  · simp only [hx, hu, hf, Bool.false_eq_true, if_false, if_true]
    simp only [hf] at hc0
    exact close_closes hc0

end Solo

/-! ## C81 -/

/-- **C81 (order)**: the first request of a connection, in every schedule, whatever interim responses are sent and also if it becomes a
WebSocket: the bytes received are the head, which ends with its first blank line, then what the handler took, in order, and then the bytes it can still take.
If nothing is still being queued, these are the ones in the queue. Hypotheses: `Steady`; the connection was not
reset for a second request, nor closed. Missing: a segment that is being queued when the 101 is sent (`C81_refuted_early`), and sessions on
connections that were kept, which do not work (`C81_kept`). -/
theorem C81_partial (c : Cfg) {es : List Ev} (h : Steady c {} es) (hg : (run c {} es).gen = 0) (hw : (run c {} es).noWrite = false) :
    (run c {} es).log = [] ∨ ∃ k raw acts rest, (run c {} es).log = .head k raw :: acts ∧ Spec.Stream.Minimal raw ∧ (∀ a ∈ acts, ∃ k x, a = Act.body k x) ∧
      (run c {} es).rx = raw ++ (acts.map Act.bytes).flatten ++ rest ∧
      ((∀ x ∈ (run c {} es).recvs, x = .done) → rest = ((run c {} es).q0.map (·.getD [])).flatten) := by
  have ok := ok_run es ok_init h
  generalize run c {} es = s at *
  rcases ok with x | x | ⟨_, p⟩
  · rw [hw] at x; cases x
  · exact absurd hg x
  · cases p with
    | idle buf hb heads q recvs receive fut rx log => exact .inl log
    | early y hb heads log => exact .inl log
    | going k raw acts hb heads log bodies min rx chain older rc =>
      right
      refine ⟨k, raw, acts, Flow.q0b s ++ (s.recvs.map Flow.rback).flatten, log, min, bodies, ?_, fun hd => ?_⟩
      · rw [rx]; simp only [Flow.eaten, log, List.map_cons, List.flatten_cons, Act.bytes]
      · rw [Flow.flat_nil (fun r hr => by rw [hd r hr]; rfl), List.append_nil]; rfl

/-- **C81 (progress)**: once the 101 was sent, the connection reads on, or a segment that arrived can be queued; and each time one is, there is less left
to do, unless the queue is full, which aborts. So a session cannot stall with reading paused. -/
theorem C81_progress_partial (c : Cfg) {es : List Ev} (h : Steady c {} es) (hb : 0 < c.bufferSize) (hg : (run c {} es).gen = 0) (hw : (run c {} es).noWrite = false)
    (hf : (run c {} es).first = false) :
    ((run c {} es).reading = true ∨ ∃ i, ready (run c {} es) i) ∧
    ∀ i, ready (run c {} es) i → (recvStep c i (run c {} es)).noWrite = true ∨ work (recvStep c i (run c {} es)) < work (run c {} es) := by
  obtain ⟨_, ok, ok2⟩ := all_run es rfl ok_init ok2_init h
  generalize run c {} es = s at *
  have t : Tail s := (ok2.resolve_left (by rw [hw]; simp)).resolve_left (fun x => x hg)
  have p : Phase s := ((ok.resolve_left (by rw [hw]; simp)).resolve_left (fun x => x hg)).2
  refine ⟨?_, ?_⟩
  · rcases t.flow hf with x | ⟨x, hx, hn⟩
    · exact .inl x
    · right
      have hs : s.started ≠ [] := fun e => by have := (t.early e).1; rw [hf] at this; cases this
      cases p with
      | idle _ _ _ _ _ _ _ _ log => exact absurd (started_log log) hs
      | early _ _ _ log => exact absurd (started_log log) hs
      | going k raw acts hb heads log bodies min rx chain older rc =>
        obtain ⟨i, hi⟩ := List.getElem?_of_mem hx
        refine some_ready (t.fut hs) older (List.getElem?_eq_some_iff.1 hi).1 ?_
        rw [hi]; intro e; cases e; exact hn rfl
  · rintro i (⟨f, hi⟩ | ⟨d, w, hi, hwt⟩)
    · unfold recvStep; rw [hi]
      refine work_fed hi hb ?_
      by_cases hr : f.rest = []
      · exact .inl ⟨hr, by simp [cost]⟩
      · right
        have : 0 < f.rest.length := List.length_pos_iff.2 hr
        simp only [cost, List.length_drop]; omega
    · unfold recvStep; rw [hi]; dsimp only; rw [if_pos hwt]
      refine work_fed hi hb (.inr ?_)
      simp only [cost, List.length_drop]; omega

/-- **C81 (kept connections)**: in every schedule, when a request that is not the first of its connection is upgraded, the connection is closed as
soon as the 101 was sent, and nothing more is written. -/
theorem C81_kept (c : Cfg) (es es' : List Ev) {q : List Item} {k : Nat} {r : Rq} (hg : (run c {} es).gen ≠ 0) (hc : (run c {} es).closing = false)
    (hd : (run c {} es).sendDone = false) (hq : (run c {} es).q1 = none :: q) (hk : (run c {} es).cur = some k) (hr : (run c {} es).reqs[k]? = some r)
    (hu : r.upgraded = true) (hx : r.req.httpContinue = false) :
    (run c {} (es ++ .send :: es')).closing = true ∧ (run c {} (es ++ .send :: es')).written = (run c {} es).written := by
  have hf : (run c {} es).first = false := (first_run es (s := {}) (.inl rfl)).resolve_left hg
  have hrun : run c {} (es ++ .send :: es') = run c (step c (run c {} es) .send) es' := by simp [run]
  rw [hrun]
  generalize run c {} es = s at *
  have key : (step c s .send).closing = true ∧ (step c s .send).noWrite = true ∧ (step c s .send).written = s.written := by
    have hs : step c s .send = marker c { s with q1 := q, sent := s.sent ++ [none] } := by
      simp only [step, sendStep]; rw [hd, hq]; simp
    rw [hs]
    obtain ⟨s', h1, h2⟩ := marker_quiet c { s with q1 := q, sent := s.sent ++ [none] }
    have hwr : (marker c { s with q1 := q, sent := s.sent ++ [none] }).written = s.written := by rcases h2 with h2 | ⟨h2, _⟩ <;> rw [h2] <;> exact h1.written
    suffices h : (marker c { s with q1 := q, sent := s.sent ++ [none] }).closing = true ∧ (marker c { s with q1 := q, sent := s.sent ++ [none] }).noWrite = true from
      ⟨h.1, h.2, hwr⟩
    have hk' : ({ s with q1 := q, sent := s.sent ++ [none] } : St).cur = some k := hk
    have hr' : ({ s with q1 := q, sent := s.sent ++ [none] } : St).reqs[k]? = some r := hr
    have hc' : ({ s with q1 := q, sent := s.sent ++ [none] } : St).closing = false := hc
    have hf' : ({ s with q1 := q, sent := s.sent ++ [none] } : St).first = false := hf
    generalize ({ s with q1 := q, sent := s.sent ++ [none] } : St) = s1 at *
    unfold marker
    rw [hk']; dsimp only; rw [hr']; dsimp only
    split
    · exact keep_kept hc' hf' hu hx
    · exact close_closes (by unfold setReq; split <;> exact hc')
  exact ⟨closing_run es' key.1, (mute_run es' key.2.1).trans key.2.2⟩

/-! ## Cases and refutations -/

/-- A handshake; two segments follow, the first before the handler has sent the 101. -/
def session : List Ev :=
  [.data b!"GET / HTTP/1.1\r\nUpgrade: websocket\r\n\r\nhe", .head 0, .head 0, .take 0, .data b!"ll", .recv 0, .upgrade 0, .emit 0 b!"101", .recv 0, .mark 0 true,
   .send, .send, .data b!"o wo", .take 0, .recv 1, .take 0, .recv 1, .data b!"rld", .recv 2, .recv 2]

/-- A POST with `Expect: 100-continue`. -/
def continued : List Ev :=
  [.data b!"POST / HTTP/1.1\r\nContent-Length: 5\r\nExpect: 100-continue\r\n\r\n", .head 0, .head 0, .emit 0 b!"100", .mark 0 true, .send, .send, .data b!"hel", .recv 0,
   .recv 0, .take 0, .data b!"lo", .recv 1, .recv 1]

namespace Solo

def steadyB (s : St) : Ev → Bool
  | .take _ | .upgrade _ => !s.started.isEmpty
  | .send => s.q1.head? != some none || (match s.cur with | some k => (match s.reqs[k]? with | some r => !r.upgraded || s.recvs.all (· == .done) | none => true) | none => true)
  | _ => true

theorem steady_of {s : St} {e : Ev} (h : steadyB s e = true) : steady s e := by
  cases e with
  | take k => intro x; simp [steadyB, x] at h
  | upgrade k => intro x; simp [steadyB, x] at h
  | send =>
    intro hq k r hk hr hu
    simp only [steadyB, hq, bne_self_eq_false, Bool.false_or] at h
    rw [hk] at h; dsimp only at h; rw [hr] at h; dsimp only at h
    rw [hu] at h
    intro x hx
    have := List.all_eq_true.1 (by simpa using h : s.recvs.all (· == .done) = true) x hx
    simpa using this
  | _ => trivial

def SteadyB (c : Cfg) : St → List Ev → Bool
  | _, [] => true
  | s, e :: es => steadyB s e && SteadyB c (step c s e) es

theorem SteadyB.steady {c : Cfg} : ∀ {es : List Ev} {s : St}, SteadyB c s es = true → Steady c s es
  | [], _, _ => trivial
  | _ :: _, _, h => by
    simp only [SteadyB, Bool.and_eq_true] at h
    exact ⟨steady_of h.1, SteadyB.steady h.2⟩

end Solo

/-- The hypotheses of `C81_partial` and `C81_progress_partial` hold for them. -/
example : Steady {} {} session ∧ (run {} {} session).gen = 0 ∧ (run {} {} session).noWrite = false ∧ (run {} {} session).first = false ∧
    (run {} {} session).log = [.head 0 b!"GET / HTTP/1.1\r\nUpgrade: websocket\r\n\r\n", .body 0 (some []), .body 0 (some b!"he"), .body 0 (some b!"ll")] ∧
    (run {} {} session).q0 = [some b!"o wo", some b!"rld"] ∧ (run {} {} session).written = [b!"101"] :=
  ⟨SteadyB.steady (by decide +kernel), by decide +kernel⟩
example : Steady {} {} continued ∧ (run {} {} continued).gen = 0 ∧ (run {} {} continued).noWrite = false ∧
    (run {} {} continued).log = [.head 0 b!"POST / HTTP/1.1\r\nContent-Length: 5\r\nExpect: 100-continue\r\n\r\n", .body 0 (some b!"hel")] ∧
    (run {} {} continued).q0 = [some b!"lo", none] :=
  ⟨SteadyB.steady (by decide +kernel), by decide +kernel⟩

/-- A handshake on a kept connection. The hypotheses of `C81_kept` hold for it. -/
def keptSession : List Ev :=
  [.data b!"GET / HTTP/1.1\r\n\r\n", .head 0, .emit 0 b!"one", .leave 0 true, .send, .send, .data b!"GET /ws HTTP/1.1\r\nUpgrade: websocket\r\n\r\n", .head 1,
   .upgrade 1, .emit 1 b!"101", .mark 1 true, .send]

example : (run {} {} keptSession).gen = 1 ∧ (run {} {} keptSession).closing = false ∧ (run {} {} keptSession).sendDone = false ∧ (run {} {} keptSession).q1 = [none] ∧
    (run {} {} keptSession).cur = some 1 ∧ ((run {} {} keptSession).reqs[1]?).map (fun r => (r.upgraded, r.req.httpContinue, r.req.httpKeepalive)) = some (true, false, true) := by
  decide +kernel

/-- **C81 is false** for WebSockets on a connection that was kept: the client gets a 101 and is then disconnected, and nothing that the handler sends arrives. -/
theorem C81_refuted_kept :
    let s := run {} {} (keptSession ++ [.send, .emit 1 b!"frame", .send, .data b!"frame"])
    s.written = [b!"one", b!"101"] ∧ s.closing = true ∧ s.rx = (run {} {} keptSession).rx ∧ s.running = [1] := by decide +kernel

/-- **C81 is false** for a client that does not wait for the 101: a segment that is being queued when the 101 is sent is overtaken by the next one. -/
theorem C81_refuted_early :
    let s := run { bufferSize := 4 } {} [.data b!"GET / HTTP/1.1\r\nUpgrade: websocket\r\n\r\n12", .head 0, .head 0, .data b!"34567890", .recv 0, .upgrade 0, .emit 0 b!"101",
      .mark 0 true, .send, .send, .data b!"abc", .recv 1, .recv 0]
    s.rx = b!"GET / HTTP/1.1\r\nUpgrade: websocket\r\n\r\n1234567890abc" ∧ s.noWrite = false ∧
      s.q0 = [some [], some b!"12", some b!"3456", some b!"abc", some b!"7890"] := by decide +kernel

end Verif
