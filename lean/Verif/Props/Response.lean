import Verif.Spec.Response
import Verif.Proofs.Response
/-!
# Responses: C18-C24, C27-C29
-/
namespace Verif
open Verif.Py Verif.Model.Upload Verif.Model.Response Verif.Spec.Response Verif.Proofs.Response

/-! ## C24 -/

theorem delivered_append (a b : List Item) : delivered (a ++ b) = delivered a ++ delivered b := by
  induction a with
  | nil => rfl
  | cons x t ih => cases x <;> simp [delivered, ih]

theorem delivered_pieces (ps : List Bytes) : delivered (ps.map some) = ps.flatten.map some := by
  induction ps with
  | nil => rfl
  | cons x t ih => simp [delivered, ih]

theorem asked_append (a b : List SendOp) : asked (a ++ b) = asked a ++ asked b := by
  induction a with
  | nil => rfl
  | cons x t ih => cases x <;> simp [asked, ih]

theorem sendStep_stream (s : Out) (op : SendOp) (h : SendOp.Ok op) :
    delivered (sendStep s op).queue ++ (sendStep s op).buf.map some = delivered s.queue ++ s.buf.map some ++ asked [op] ∧
    (op = .close → (sendStep s op).buf = []) := by
  cases op with
  | close =>
    refine ⟨?_, fun _ => ?_⟩
    · unfold sendStep
      by_cases hb : s.buf = [] <;> simp [hb, delivered_append, delivered, asked]
    · unfold sendStep
      by_cases hb : s.buf = [] <;> simp [hb]
  | send d o =>
    refine ⟨?_, by simp⟩
    unfold sendStep
    dsimp only
    generalize o.holds s.buf.length = lt
    cases lt with
    | true => simp [asked]
    | false =>
      by_cases ht : o.throttle = true
      · have hp := Proofs.BodyStream.pieces_flatten (bs := o.bufferSize) (h ht) (s.buf ++ d)
        simp [ht, delivered_append, delivered_pieces, hp, asked]
      · simp [ht, delivered_append, delivered, asked]

/-- **C24**: for any calls of `send` (any throttling, buffer sizes and `buffer_min_size`) and `close`, what has been
queued, up to the coalescing buffer, is what was asked for, in order; -/
theorem C24_stream (ops : List SendOp) (h : ∀ op ∈ ops, SendOp.Ok op) :
    delivered (sendAll ops).queue ++ (sendAll ops).buf.map some = asked ops := by
  induction ops using snocInd with
  | h0 => rfl
  | h1 l x ih =>
    have hx := (sendStep_stream (sendAll l) x (h x (by simp))).1
    rw [ih (fun op ho => h op (by simp [ho]))] at hx
    rw [asked_append, ← hx]
    simp [sendAll]

/-- and after `close` nothing remains in the buffer: the bytes before the close marker are exactly the data of the calls. -/
theorem C24_closed (ops : List SendOp) (h : ∀ op ∈ ops, SendOp.Ok op) :
    delivered (sendAll (ops ++ [.close])).queue = asked ops ++ [none] ∧ (sendAll (ops ++ [.close])).buf = [] := by
  have hb : (sendAll (ops ++ [.close])).buf = [] := by
    have : sendAll (ops ++ [.close]) = sendStep (sendAll ops) .close := by simp [sendAll]
    rw [this]
    exact (sendStep_stream (sendAll ops) .close trivial).2 rfl
  refine ⟨?_, hb⟩
  have := C24_stream (ops ++ [.close]) (fun op ho => by
    rcases List.mem_append.1 ho with h' | h'
    · exact h op h'
    · simp at h'; subst h'; trivial)
  rw [hb, asked_append] at this
  simpa [asked] using this

/-- Nothing is queued in pieces above the buffer size when every call throttles, and an early `close` between calls keeps
its place (example with coalescing). -/
example : (sendAll [.send b!"ab" { bufferMin := some 3 }, .send b!"cd" { bufferMin := some 3 }, .send b!"ef" { bufferMin := some 3, bufferSize := 4 },
    .send b!"g" { bufferMin := some 3 }, .close]).queue = [some b!"abcd", some b!"ef", some b!"g", none] := by decide +kernel

/-! ## C19 -/

theorem oneHead_of_R {s s' : St} (h : R s s') (hs : s.headers ≠ none) (hl : s.log = []) : OneHead s'.log := by
  obtain ⟨⟨l, e, _, hq, hh⟩, _⟩ := h
  rw [hl, List.nil_append] at e
  rw [e]
  have quiet : ∀ {m : List Emit}, (∀ e ∈ m, Quiet e) → m.filter isHead = [] ∧ ∀ e ∈ m, isBody e = false := by
    intro m hm
    refine ⟨List.filter_eq_nil_iff.2 fun e he => ?_, fun e he => ?_⟩
    all_goals have := hm e he; cases e <;> simp_all [Quiet, isHead, isBody]
  have nothead : ∀ {m : List Emit}, (∀ e ∈ m, NotHead e) → m.filter isHead = [] := by
    intro m hm
    refine List.filter_eq_nil_iff.2 fun e he => ?_
    have := hm e he; cases e <;> simp_all [NotHead, isHead]
  by_cases hn : s'.headers = none
  · obtain ⟨a, t, b, o, r, e', ha, hr⟩ := hh hs hn
    subst e'
    refine ⟨by
      have e1 : isHead (.head t b o) = true := rfl
      rw [List.filter_append, List.filter_cons, if_pos e1, (quiet ha).1, nothead hr]; simp, ?_⟩
    intro pre x post he hx
    by_cases hlen : pre.length ≤ a.length
    · exfalso
      have : x ∈ a ++ [Emit.head t b o] := by
        have h1 : (a ++ [Emit.head t b o]) <+: (pre ++ x :: post) := ⟨r, by rw [← he]; simp⟩
        have h2 : (pre ++ [x]) <+: (pre ++ x :: post) := ⟨post, by simp⟩
        have h3 : (pre ++ [x]) <+: (a ++ [Emit.head t b o]) := List.prefix_of_prefix_length_le h2 h1 (by simp; omega)
        exact h3.subset (by simp)
      rcases List.mem_append.1 this with h' | h'
      · rw [(quiet ha).2 x h'] at hx; cases hx
      · simp at h'; subst h'; cases hx
    · have h1 : (a ++ [Emit.head t b o]) <+: (pre ++ x :: post) := ⟨r, by rw [← he]; simp⟩
      have h2 : pre <+: (pre ++ x :: post) := ⟨x :: post, rfl⟩
      have h3 : (a ++ [Emit.head t b o]) <+: pre := List.prefix_of_prefix_length_le h1 h2 (by simp; omega)
      exact ⟨_, h3.subset (List.mem_append_right _ (List.mem_singleton.2 rfl)), rfl⟩
  · have hq' := quiet (hq hn)
    refine ⟨by rw [hq'.1]; simp, ?_⟩
    intro pre x post he hx
    rw [hq'.2 x (by rw [he]; simp)] at hx; cases hx

/-- **C19**: whatever calls a handler makes on a response that has not been sent, and whichever of their exceptions it
catches, there is at most one head and it precedes every body byte. -/
theorem C19_calls (c : Cfg) (sc : Script) (s : St) (h0 : s.headers ≠ none) (hl : s.log = []) :
    OneHead (runScript c sc s).2.log :=
  oneHead_of_R (good_script c sc s) h0 hl

/-- The same for the handling of a whole request: request middlewares, handler (returning or yielding), response
middlewares and, if any of them raises, the error path with its own handler. -/
theorem C19_request (c : Cfg) (a : App) (s : St) (h0 : s.headers ≠ none) (hl : s.log = []) :
    OneHead (handleRequest c a s).log :=
  oneHead_of_R (handleRequest_R c a s) h0 hl

/-- Once the head has been sent, every call that would change it raises and leaves the state as it was. -/
theorem C19_mutation (c : Cfg) (call : Call) (s : St) (hm : mutates call = true) (hs : s.headers = none) :
    ∃ e, call.run c s = (.error e, s) := by
  cases call <;> cases hm
  case appendHeader n v => exact ⟨_, bind_err (headers_none hs)⟩
  case setCookie k =>
    show ∃ e, setCookie k s = _
    unfold setCookie
    split
    · exact ⟨_, rfl⟩
    · exact ⟨_, bind_err (headers_none hs)⟩
  case setHeader n v =>
    show ∃ e, setHeader n v s = _
    unfold setHeader
    split
    · exact ⟨_, rfl⟩
    · exact ⟨_, bind_err (headers_none hs)⟩
  case setStatus st m =>
    show ∃ e, setStatus st m s = _
    unfold setStatus
    split
    · exact ⟨_, rfl⟩
    · exact ⟨_, bind_err (headers_none hs)⟩
  case setContentType ct =>
    show ∃ e, setContentType ct s = _
    unfold setContentType
    split
    · exact ⟨_, rfl⟩
    · exact ⟨_, bind_err (headers_none hs)⟩

/-- A handler that writes, then tries to set a header, then raises: one head, then the body, and the connection aborted. -/
example : (handleRequest {} { handler := .coro [(.write (some b!"x") none {}, false), (.setHeader b!"a" b!"b", true)] (.raise .timeout) } {}).log.map
    (fun e => (isHead e, isBody e)) = [(true, false), (false, true)] ∧
    (handleRequest {} { handler := .coro [(.write (some b!"x") none {}, false)] (.raise .timeout) } {}).aborted = true := by decide +kernel
/-- A handler that sets a header and raises before anything is sent: one head from the error path. -/
example : ((handleRequest {} { handler := .coro [(.setHeader b!"a" b!"b", false)] (.raise .timeout), err := { ret := .ok (some b!"oops") } } {}).log.map
    isHead) = [true, false] := by decide +kernel

end Verif
