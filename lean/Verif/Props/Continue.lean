import Verif.Proofs.Continue
/-!
# 100-continue: C18, C60, C61
-/
namespace Verif
open Verif.Py Verif.Model.Response Verif.Model.Continue Verif.Proofs.Response Verif.Proofs.Continue

/-- The interim response. -/
def interim (c : Cfg) : Bytes := b!"HTTP/" ++ c.version ++ b!" 100 Continue\r\n\r\n"

/-- A request that expects 100-continue and to which nothing has happened. -/
structure Expecting (k : Conn) : Prop where
  cont : k.st.cont = true
  log : k.st.log = []
  taken : k.taken = 0
  acts : k.acts = []
  closed : k.closed = false
  ready : k.ready = false

/-- What one step can add to the trace. -/
inductive Adds (c : Cfg) (big : Prop) : Bool → List Act → Bool → Prop
  | quiet (cont : Bool) (l : List Emit) : (∀ e ∈ l, isCont e = false) → Adds c big cont (l.map .emit) cont
  | refused (cont : Bool) (e : Exc) : (cont = true → big → e = expectationFailed) → Adds c big cont [.refused e] cont
  | read : ¬ big → Adds c big false [.read] false
  | interim (l : List Act) (m : Bool) : ¬ big → (l = [.read] ∨ l = []) → Adds c big true ([.emit (.cont (interim c)), .emit (.mark m)] ++ l) true
  | taken (cont : Bool) (b cont' : Bool) : (b = true → cont' = false) → (b = false → cont' = cont) → Adds c big cont [.taken b] cont'

theorem added_append {s s' : St} {l : List Emit} (h : s'.log = s.log ++ l) : added s s' = l.map .emit := by
  unfold added; rw [h]; simp

theorem step_adds (c : Cfg) (ch : Bool) (k : Conn) (ev : Ev) : ∃ l, (step c ch k ev).acts = k.acts ++ l ∧
    Adds c (ch = false ∧ c.contentLength > (c.maxBody : Int)) k.st.cont l (step c ch k ev).st.cont := by
  cases ev with
  | call x =>
    by_cases hx : x = .stream
    · subst hx
      show ∃ l, k.acts ++ added k.st (sendContinue c k.st).2 = _ ∧ Adds c _ _ l (sendContinue c k.st).2.cont
      by_cases hc : k.st.cont = true
      · by_cases hb : c.contentLength > (c.maxBody : Int)
        · rw [sendContinue_big hc hb]
          exact ⟨[], by simp [added], Adds.quiet _ [] (by simp)⟩
        · rw [sendContinue_on hc hb]
          refine ⟨_, congrArg _ (added_append rfl), ?_⟩
          have := Adds.interim (c := c) (big := ch = false ∧ c.contentLength > (c.maxBody : Int)) [] k.st.keepalive (fun h => hb h.2) (.inr rfl)
          show Adds c _ k.st.cont _ k.st.cont
          rw [hc]; exact this
      · have hc' : k.st.cont = false := by simpa using hc
        rw [sendContinue_off hc']
        exact ⟨[], by simp [added], Adds.quiet _ [] (by simp)⟩
    · obtain ⟨h1, l, h2, h3⟩ := nc_call c x hx k.st
      refine ⟨_, congrArg _ (added_append h2), ?_⟩
      show Adds c _ k.st.cont _ (x.run c k.st).2.cont
      rw [h1]
      exact Adds.quiet _ l h3
  | read =>
    show ∃ l, (startRead c ch k).acts = _ ∧ Adds c _ _ l (startRead c ch k).st.cont
    unfold startRead
    by_cases hc : k.st.cont = true
    · by_cases hb : c.contentLength > (c.maxBody : Int)
      · rw [sendContinue_big hc hb]
        exact ⟨[.refused expectationFailed], by simp [added], Adds.refused _ _ (fun _ _ => rfl)⟩
      · rw [sendContinue_on hc hb]
        dsimp only
        rw [if_neg (by simp [hb])]
        refine ⟨[.emit (.cont (interim c)), .emit (.mark k.st.keepalive)] ++ [.read], ?_, ?_⟩
        · rw [added_append rfl]; simp [interim]
        · rw [hc]; exact Adds.interim _ _ (fun h => hb h.2) (.inl rfl)
    · have hc' : k.st.cont = false := by simpa using hc
      rw [sendContinue_off hc']
      simp only [Bool.and_eq_true, Bool.not_eq_true', decide_eq_true_eq]
      by_cases hb : ch = false ∧ c.contentLength > (c.maxBody : Int)
      · rw [if_pos hb]
        refine ⟨[.refused (.http 413 b!"Payload Too Large" htmlType)], by simp [added], ?_⟩
        exact Adds.refused _ _ (fun h => by rw [hc'] at h; cases h)
      · rw [if_neg hb]
        refine ⟨[.read], by simp [added], ?_⟩
        show Adds c _ k.st.cont _ k.st.cont
        rw [hc']; exact Adds.read hb
  | deliver =>
    have none : ∃ l, k.acts = k.acts ++ l ∧ Adds c (ch = false ∧ c.contentLength > (c.maxBody : Int)) k.st.cont l k.st.cont :=
      ⟨[], by simp, Adds.quiet _ [] (by simp)⟩
    simp only [step]
    split
    · exact none
    · split
      · rename_i e _
        cases e with
        | mark m =>
          simp only [deliver]
          split
          · split
            · exact ⟨_, rfl, Adds.taken _ _ _ (fun _ => rfl) (fun h => by cases h)⟩
            · rename_i h
              exact ⟨_, rfl, Adds.taken _ _ _ (fun _ => by simpa using h) (fun h => by cases h)⟩
          · exact ⟨_, rfl, Adds.taken _ _ _ (fun h => by cases h) (fun _ => rfl)⟩
        | _ => exact none
      · exact none

theorem run_snoc (c : Cfg) (ch : Bool) (k : Conn) (evs : List Ev) (ev : Ev) : Model.Continue.run c ch k (evs ++ [ev]) = step c ch (Model.Continue.run c ch k evs) ev := by
  simp [Model.Continue.run]

/-- Once switched off, `http_continue` stays off and no interim response is emitted. -/
theorem adds_off {c : Cfg} {big : Prop} {cont cont' : Bool} {l : List Act} (hc : cont = false) (h : Adds c big cont l cont') : cont' = false ∧ ∀ b, Act.emit (.cont b) ∉ l := by
  cases h with
  | quiet _ l hl =>
    refine ⟨hc, fun b hb => ?_⟩
    obtain ⟨e, he, hx⟩ := List.mem_map.1 hb
    cases hx; exact absurd (hl _ he) (by simp [isCont])
  | refused _ e _ => exact ⟨hc, by simp⟩
  | read _ => exact ⟨rfl, by simp⟩
  | interim l m _ _ => cases hc
  | taken _ b cont' h1 h2 =>
    refine ⟨?_, by simp⟩
    cases b
    · rw [h2 rfl]; exact hc
    · exact h1 rfl

theorem split_append {α : Type} {a b pre post : List α} {x : α} (h : a ++ b = pre ++ x :: post) :
    (∃ r, a = pre ++ x :: r ∧ post = r ++ b) ∨ ∃ r, pre = a ++ r ∧ b = r ++ x :: post := by
  rcases List.append_eq_append_iff.1 h with ⟨r, h1, h2⟩ | ⟨r, h1, h2⟩
  · exact .inr ⟨r, h1, h2⟩
  · cases r with
    | nil => simp at h1 h2; exact .inr ⟨[], by simp [h1], by simp [h2]⟩
    | cons y t =>
      simp at h2
      exact .inl ⟨t, by rw [h1, h2.1], h2.2⟩

structure Trace (c : Cfg) (ch : Bool) (acts : List Act) (cont : Bool) : Prop where
  off : cont = false ↔ .taken true ∈ acts
  order : ∀ pre post, acts = pre ++ .read :: post → .emit (.cont (interim c)) ∈ pre ∨ .taken true ∈ pre
  once : ∀ pre post, acts = pre ++ .taken true :: post → ∀ b, Act.emit (.cont b) ∉ post
  big : ch = false ∧ c.contentLength > (c.maxBody : Int) → ∀ x ∈ acts, x ≠ .read ∧ ∀ b, x ≠ .emit (.cont b)
  text : ∀ b, Act.emit (.cont b) ∈ acts → b = interim c

theorem trace_run (c : Cfg) (ch : Bool) {k : Conn} (hk : Expecting k) (evs : List Ev) : Trace c ch (Model.Continue.run c ch k evs).acts (Model.Continue.run c ch k evs).st.cont := by
  induction evs using snocInd with
  | h0 =>
    show Trace c ch k.acts k.st.cont
    rw [hk.acts, hk.cont]
    exact ⟨by simp, fun pre post h => by simp at h, fun pre post h => by simp at h, by simp, by simp⟩
  | h1 evs ev ih =>
    rw [run_snoc]
    generalize Model.Continue.run c ch k evs = k at ih
    obtain ⟨l, e, ha⟩ := step_adds c ch k ev
    rw [e]
    generalize (step c ch k ev).st.cont = cont' at ha
    have emit_of : ∀ {l : List Emit}, (∀ e ∈ l, isCont e = false) → ∀ b, Act.emit (.cont b) ∉ l.map Act.emit := by
      intro l hl b hb
      obtain ⟨e, he, hx⟩ := List.mem_map.1 hb
      cases hx; exact absurd (hl _ he) (by simp [isCont])
    refine ⟨?_, ?_, ?_, ?_, ?_⟩
    · rw [List.mem_append, ← ih.off]
      generalize k.st.cont = cont at ha
      cases ha with
      | quiet _ l hl => simp
      | refused _ e _ => simp
      | read _ => simp
      | interim l m _ hl => rcases hl with rfl | rfl <;> simp
      | taken _ b cont' h1 h2 =>
        cases b
        · simp [h2 rfl]
        · simp [h1 rfl]
    · intro pre post h
      rcases split_append h with ⟨r, h1, _⟩ | ⟨r, h1, h2⟩
      · exact ih.order pre r h1
      · rw [h1]
        simp only [List.mem_append]
        generalize hcont : k.st.cont = cont at ha
        cases ha with
        | quiet _ l hl =>
          have : Act.read ∈ l.map Act.emit := by rw [h2]; simp
          simp at this
        | refused _ e' _ =>
          have : Act.read ∈ [Act.refused e'] := by rw [h2]; simp
          simp at this
        | read _ => exact .inr (.inl (ih.off.1 hcont))
        | interim l m _ hl =>
          rcases hl with rfl | rfl
          · rcases r with _ | ⟨x, r⟩
            · simp at h2
            · simp only [List.cons_append, List.nil_append, List.cons.injEq] at h2
              exact .inl (.inr (by rw [← h2.1]; simp))
          · have : Act.read ∈ [Act.emit (.cont (interim c)), Act.emit (.mark m)] := by rw [show [Act.emit (.cont (interim c)), Act.emit (.mark m)] = _ from h2]; simp
            simp at this
        | taken _ b cont' _ _ =>
          have : Act.read ∈ [Act.taken b] := by rw [h2]; simp
          simp at this
    · intro pre post h b hb
      rcases split_append h with ⟨r, h1, h2⟩ | ⟨r, h1, h2⟩
      · rw [h2] at hb
        rcases List.mem_append.1 hb with hb | hb
        · exact ih.once pre r h1 b hb
        · have hc : k.st.cont = false := ih.off.2 (by rw [h1]; simp)
          exact (adds_off hc ha).2 b hb
      · generalize k.st.cont = cont at ha
        cases ha with
        | quiet _ l hl => exact emit_of hl b (by rw [h2]; simp [hb])
        | refused _ e' _ =>
          have : Act.emit (.cont b) ∈ [Act.refused e'] := by rw [h2]; simp [hb]
          simp at this
        | read _ =>
          have : Act.emit (.cont b) ∈ [Act.read] := by rw [h2]; simp [hb]
          simp at this
        | interim l m _ hl =>
          have : Act.taken true ∈ [Act.emit (.cont (interim c)), Act.emit (.mark m)] ++ l := by rw [h2]; simp
          rcases hl with rfl | rfl <;> simp at this
        | taken _ b' cont' _ _ =>
          have : Act.emit (.cont b) ∈ [Act.taken b'] := by rw [h2]; simp [hb]
          simp at this
    · intro hbig x hx
      rcases List.mem_append.1 hx with hx | hx
      · exact ih.big hbig x hx
      · generalize k.st.cont = cont at ha
        cases ha with
        | quiet _ l hl =>
          obtain ⟨e, he, rfl⟩ := List.mem_map.1 hx
          exact ⟨by simp, fun b hb => emit_of hl b (by rw [← hb]; exact List.mem_map_of_mem he)⟩
        | refused _ e _ => simp at hx; subst hx; exact ⟨by simp, by simp⟩
        | read hb => exact absurd hbig hb
        | interim l m hb _ => exact absurd hbig hb
        | taken _ b cont' _ _ => simp at hx; subst hx; exact ⟨by simp, by simp⟩
    · intro b hb
      rcases List.mem_append.1 hb with hb | hb
      · exact ih.text b hb
      · generalize k.st.cont = cont at ha
        cases ha with
        | quiet _ l hl => exact absurd hb (emit_of hl b)
        | interim l m _ hl => rcases hl with rfl | rfl <;> simpa using hb
        | _ => simp at hb

/-- **C18**, order: whether the body has a length or is chunked and whatever the handler and the send task do, a body read that goes on to await data comes after the
interim response, or after the send task took an end marker of this request. -/
theorem C18_order (c : Cfg) (ch : Bool) {k : Conn} (hk : Expecting k) (evs : List Ev) :
    ∀ pre post, (Model.Continue.run c ch k evs).acts = pre ++ .read :: post → .emit (.cont (interim c)) ∈ pre ∨ .taken true ∈ pre :=
  (trace_run c ch hk evs).order

/-- **C18**, once: after the send task has taken an end marker of this request on a kept connection (the one behind the
interim response is the first), no interim response is emitted any more; all of them have the one text. -/
theorem C18_once (c : Cfg) (ch : Bool) {k : Conn} (hk : Expecting k) (evs : List Ev) :
    (∀ pre post, (Model.Continue.run c ch k evs).acts = pre ++ .taken true :: post → ∀ b, Act.emit (.cont b) ∉ post) ∧
    ∀ b, Act.emit (.cont b) ∈ (Model.Continue.run c ch k evs).acts → b = interim c :=
  ⟨(trace_run c ch hk evs).once, (trace_run c ch hk evs).text⟩

/-- **C18**, limit: with a Content-Length above the limit there is never an interim response and never a body read; the
first read raises 417. -/
theorem C18_limit (c : Cfg) (hb : c.contentLength > (c.maxBody : Int)) {k : Conn} (hk : Expecting k) (evs : List Ev) :
    (∀ x ∈ (Model.Continue.run c false k evs).acts, x ≠ .read ∧ ∀ b, x ≠ .emit (.cont b)) ∧
    ((Model.Continue.run c false k evs).st.cont = true →
      (Model.Continue.run c false k (evs ++ [.read])).acts = (Model.Continue.run c false k evs).acts ++ [.refused expectationFailed]) := by
  refine ⟨(trace_run c false hk evs).big ⟨rfl, hb⟩, fun h => ?_⟩
  rw [run_snoc]
  show (startRead c false _).acts = _
  unfold startRead
  rw [sendContinue_big h hb]
  simp [added]

/-- **C18**, admitted: a body that is chunked, or whose length is within the limit, is never kept from being read: each read goes on to await data. A chunked
body has no length that the interim response could be refused for. -/
theorem C18_admitted (c : Cfg) (ch : Bool) {k : Conn} (hb : ch = true ∨ ¬ c.contentLength > (c.maxBody : Int)) (evs : List Ev)
    (hc : (Model.Continue.run c ch k evs).st.cont = false ∨ ¬ c.contentLength > (c.maxBody : Int)) :
    ∃ l, (Model.Continue.run c ch k (evs ++ [.read])).acts = (Model.Continue.run c ch k evs).acts ++ l ++ [.read] := by
  rw [run_snoc]
  generalize Model.Continue.run c ch k evs = k at hc ⊢
  show ∃ l, (startRead c ch k).acts = _
  have hn : ¬ (!ch && decide (c.contentLength > (c.maxBody : Int))) = true := by
    rcases hb with rfl | hb
    · simp
    · simp [hb]
  unfold startRead
  by_cases h : k.st.cont = true
  · rcases hc with hc | hc
    · rw [h] at hc; cases hc
    · rw [sendContinue_on h hc]
      simp only
      rw [if_neg hn]
      exact ⟨_, rfl⟩
  · rw [sendContinue_off (by simpa using h)]
    simp only
    rw [if_neg hn]
    exact ⟨_, rfl⟩

/-- A chunked body: the interim response, then the read. -/
example := C18_order { contentLength := -1, maxBody := 10 } true (k := { st := { keepalive := true, cont := true } }) ⟨rfl, rfl, rfl, rfl, rfl, rfl⟩ [.read, .deliver, .deliver, .read]
example := C18_admitted { contentLength := -1, maxBody := 10 } true (k := { st := { keepalive := true, cont := true } }) (.inl rfl) [.read, .deliver, .deliver] (.inr (by decide))
example : (Model.Continue.run { contentLength := -1, maxBody := 10 } true { st := { keepalive := true, cont := true } } [.read, .deliver, .deliver, .read]).acts =
    [.emit (.cont b!"HTTP/1.1 100 Continue\r\n\r\n"), .emit (.mark true), .read, .taken true, .read] := by decide +kernel

/-- A handler that reads, then answers, while the send task works in between; and one whose length is too large. -/
example : (Model.Continue.run { contentLength := 5, maxBody := 10 } false { st := { keepalive := true, cont := true } }
      [.read, .deliver, .deliver, .read, .call (.end_ b!"x" true {}), .deliver, .deliver]).acts.map
      (fun x => match x with | .emit (.cont b) => b | .read => b!"read" | .taken true => b!"taken" | .emit (.head ..) => b!"head" | _ => []) =
    [b!"HTTP/1.1 100 Continue\r\n\r\n", [], b!"read", b!"taken", b!"read", b!"head", [], b!"taken"] := by decide +kernel
example : (Model.Continue.run { contentLength := 11, maxBody := 10 } false { st := { keepalive := true, cont := true } } [.read]).acts = [.refused expectationFailed] := by decide +kernel
/-- The interim response is not tied to the first read: two reads started before the send task runs give two of them. -/
example : (Model.Continue.run { contentLength := 5, maxBody := 10 } false { st := { keepalive := true, cont := true } } [.read, .read]).acts =
    [.emit (.cont b!"HTTP/1.1 100 Continue\r\n\r\n"), .emit (.mark true), .read, .emit (.cont b!"HTTP/1.1 100 Continue\r\n\r\n"), .emit (.mark true), .read] := by decide +kernel

/-! ## C60, C61 -/

theorem step_log (c : Cfg) (ch : Bool) (k : Conn) (ev : Ev) : ∃ l, (step c ch k ev).st.log = k.st.log ++ l := by
  cases ev with
  | call x => obtain ⟨⟨l, h, _⟩, _⟩ := good_call c x k.st; exact ⟨l, h⟩
  | read =>
    show ∃ l, (startRead c ch k).st.log = _
    obtain ⟨⟨l, h, _⟩, _⟩ := good_sendContinue c k.st
    unfold startRead
    generalize sendContinue c k.st = x at h
    obtain ⟨x, s'⟩ := x
    cases x with
    | error e => exact ⟨l, h⟩
    | ok a => dsimp only; split <;> exact ⟨l, h⟩
  | deliver =>
    have none : ∃ l, k.st.log = k.st.log ++ l := ⟨[], by simp⟩
    simp only [step]
    split
    · exact none
    · split
      · rename_i e _
        cases e with
        | mark m =>
          simp only [deliver]
          split
          · split <;> exact none
          · exact none
        | _ => exact none
      · exact none

theorem step_keep (c : Cfg) (ch : Bool) (k : Conn) (ev : Ev) (h : k.st.keepalive = false) : (step c ch k ev).st.keepalive = false := by
  cases ev with
  | call x =>
    have := (good_call c x k.st).keep
    show (x.run c k.st).2.keepalive = false
    cases hx : (x.run c k.st).2.keepalive with
    | false => rfl
    | true => rw [this hx] at h; cases h
  | read =>
    show (startRead c ch k).st.keepalive = false
    have := (good_sendContinue c k.st).keep
    have hs : (sendContinue c k.st).2.keepalive = false := by
      cases hx : (sendContinue c k.st).2.keepalive with
      | false => rfl
      | true => rw [this hx] at h; cases h
    unfold startRead
    generalize sendContinue c k.st = x at hs
    obtain ⟨x, s'⟩ := x
    cases x with
    | error e => exact hs
    | ok a => dsimp only; split <;> exact hs
  | deliver =>
    simp only [step]
    split
    · exact h
    · split
      · rename_i e _
        cases e with
        | mark m => simp only [deliver, h]; exact h
        | _ => exact h
      · exact h

/-- While the first two entries of the log are the interim response and its marker and the connection is not keep-alive, the
send task takes nothing behind them. -/
theorem step_stuck (c : Cfg) (ch : Bool) (k : Conn) (ev : Ev) {b m r} (hl : k.st.log = .cont b :: .mark m :: r) (hk : k.st.keepalive = false)
    (ht : k.taken ≤ 1 ∨ (k.taken = 2 ∧ k.closed = true)) :
    (step c ch k ev).taken ≤ 1 ∨ ((step c ch k ev).taken = 2 ∧ (step c ch k ev).closed = true) := by
  cases ev with
  | call x => exact ht
  | read =>
    show (startRead c ch k).taken ≤ 1 ∨ ((startRead c ch k).taken = 2 ∧ (startRead c ch k).closed = true)
    unfold startRead
    generalize sendContinue c k.st = x
    obtain ⟨x, s'⟩ := x
    cases x with
    | error e => exact ht
    | ok a => dsimp only; split <;> exact ht
  | deliver =>
    simp only [step]
    split
    · exact ht
    · rename_i hcl
      rcases ht with ht | ⟨_, ht⟩
      · rw [hl]
        rcases Nat.le_one_iff_eq_zero_or_eq_one.1 ht with h0 | h0
        · rw [h0]; simp [deliver, h0]
        · rw [h0]; simp [deliver, h0, hk]
      · rw [ht] at hcl; simp at hcl

/-- **C60 is false**: when the request expects 100-continue and is not keep-alive (`Connection: close`), the end marker behind
the interim response closes the connection: whatever the handler does after its first body read, in whatever order
handler and send task run, no response head reaches the client. -/
theorem C60_refuted (c : Cfg) (ch : Bool) (hb : ¬ c.contentLength > (c.maxBody : Int)) {k : Conn} (hk : Expecting k) (hc : k.st.keepalive = false) (evs : List Ev) :
    (Model.Continue.run c ch k (.read :: evs)).st.log.take (Model.Continue.run c ch k (.read :: evs)).taken <+: [.cont (interim c), .mark false] := by
  have base : ∀ evs, ∃ r, (Model.Continue.run c ch k (.read :: evs)).st.log = .cont (interim c) :: .mark false :: r ∧
      (Model.Continue.run c ch k (.read :: evs)).st.keepalive = false ∧
      ((Model.Continue.run c ch k (.read :: evs)).taken ≤ 1 ∨
        ((Model.Continue.run c ch k (.read :: evs)).taken = 2 ∧ (Model.Continue.run c ch k (.read :: evs)).closed = true)) := by
    intro evs
    induction evs using snocInd with
    | h0 =>
      show ∃ r, (startRead c ch k).st.log = _ ∧ (startRead c ch k).st.keepalive = false ∧ _
      have e : startRead c ch k = { k with
          st := { k.st with log := k.st.log ++ [.cont (interim c), .mark k.st.keepalive] },
          acts := k.acts ++ added k.st { k.st with log := k.st.log ++ [.cont (interim c), .mark k.st.keepalive] } ++ [.read] } := by
        unfold startRead
        rw [sendContinue_on hk.cont hb]
        dsimp only
        rw [if_neg (by simp [hb])]
        rfl
      refine ⟨[], ?_, ?_, .inl ?_⟩
      · rw [e]; simp [hk.log, hc]
      · rw [e]; exact hc
      · show (startRead c ch k).taken ≤ 1
        rw [e]; simp [hk.taken]
    | h1 evs ev ih =>
      rw [← List.cons_append, run_snoc]
      obtain ⟨r, h1, h2, h3⟩ := ih
      obtain ⟨l, hl⟩ := step_log c ch (Model.Continue.run c ch k (.read :: evs)) ev
      exact ⟨r ++ l, by rw [hl, h1]; rfl, step_keep c ch _ ev h2, step_stuck c ch _ ev h1 h2 h3⟩
  obtain ⟨r, h1, _, h3⟩ := base evs
  rw [h1]
  rcases h3 with h3 | ⟨h3, _⟩
  · rcases Nat.le_one_iff_eq_zero_or_eq_one.1 h3 with h | h <;> rw [h]
    · exact ⟨_, rfl⟩
    · exact ⟨[.mark false], rfl⟩
  · rw [h3]; exact ⟨[], rfl⟩

example : Expecting { st := { cont := true } } := ⟨rfl, rfl, rfl, rfl, rfl, rfl⟩
/-- The same request with keep-alive gets its response. -/
example : ((Model.Continue.run { contentLength := 5, maxBody := 10 } false { st := { keepalive := true, cont := true } }
      [.read, .call (.end_ b!"x" true {}), .deliver, .deliver, .deliver, .deliver]).ready) = true ∧
    ((Model.Continue.run { contentLength := 5, maxBody := 10 } false { st := { cont := true } }
      [.read, .call (.end_ b!"x" true {}), .deliver, .deliver, .deliver, .deliver]).taken) = 2 := by decide +kernel

/-- The number of end markers among the entries taken. -/
def marksTaken (k : Conn) : Nat := (k.acts.filter (fun x => x == .taken true)).length

theorem marksTaken_append {k k' : Conn} {l : List Act} (h : k'.acts = k.acts ++ l) (hl : Act.taken true ∉ l) : marksTaken k' = marksTaken k := by
  have : l.filter (fun x => x == .taken true) = [] := List.filter_eq_nil_iff.2 (fun x hx hc => hl (by rw [beq_iff_eq] at hc; exact hc ▸ hx))
  unfold marksTaken
  rw [h, List.filter_append, this, List.append_nil]

theorem added_untaken (s s' : St) : Act.taken true ∉ added s s' := by
  unfold added
  intro h
  obtain ⟨e, _, he⟩ := List.mem_map.1 h
  cases he

/-- Where a request that expects 100-continue stands. -/
def Stage (k : Conn) : Prop :=
  (k.st.cont = true ∧ k.ready = false ∧ marksTaken k = 0) ∨ (k.st.cont = false ∧ k.ready = false ∧ marksTaken k = 1) ∨
    (k.st.cont = false ∧ k.ready = true ∧ marksTaken k = 2)

/-- **C61**: a connection whose request expects 100-continue becomes ready for the next request when a second end
marker is taken, and not before (the first one merely clears `http_continue`). -/
theorem C61_ready (c : Cfg) (ch : Bool) {k : Conn} (hk : Expecting k) (evs : List Ev) :
    (Model.Continue.run c ch k evs).ready = true ↔ 2 ≤ marksTaken (Model.Continue.run c ch k evs) := by
  suffices H : ∀ evs, Stage (Model.Continue.run c ch k evs) by
    rcases H evs with ⟨_, h, e⟩ | ⟨_, h, e⟩ | ⟨_, h, e⟩ <;> rw [h, e] <;> simp
  intro evs
  induction evs using snocInd with
  | h0 =>
    refine .inl ⟨hk.cont, hk.ready, ?_⟩
    show marksTaken k = 0
    unfold marksTaken; rw [hk.acts]; rfl
  | h1 evs ev ih =>
    rw [run_snoc]
    generalize Model.Continue.run c ch k evs = k at ih
    have same : ∀ {k' : Conn}, k'.ready = k.ready → k'.st.cont = k.st.cont → (∃ l, k'.acts = k.acts ++ l ∧ Act.taken true ∉ l) → Stage k' := by
      intro k' h1 h2 ⟨l, h3, h4⟩
      unfold Stage
      rw [h1, h2, marksTaken_append h3 h4]
      exact ih
    have hsc : (sendContinue c k.st).2.cont = k.st.cont := by
      by_cases hc : k.st.cont = true
      · by_cases hb : c.contentLength > (c.maxBody : Int)
        · rw [sendContinue_big hc hb]
        · rw [sendContinue_on hc hb]
      · rw [sendContinue_off (by simpa using hc)]
    cases ev with
    | call x =>
      refine same rfl ?_ ⟨_, rfl, added_untaken _ _⟩
      show (x.run c k.st).2.cont = k.st.cont
      by_cases hx : x = .stream
      · subst hx; exact hsc
      · exact (nc_call c x hx k.st).1
    | read =>
      show Stage (startRead c ch k)
      unfold startRead
      generalize hx : sendContinue c k.st = x at hsc
      obtain ⟨x, s'⟩ := x
      have un : ∀ y, y ≠ Act.taken true → Act.taken true ∉ added k.st s' ++ [y] := by
        intro y hy hm
        rcases List.mem_append.1 hm with h | h
        · exact added_untaken _ _ h
        · exact hy (List.mem_singleton.1 h).symm
      cases x with
      | error e => exact same rfl hsc ⟨_, List.append_assoc .., un _ (by simp)⟩
      | ok a =>
        dsimp only
        split
        · exact same rfl hsc ⟨_, List.append_assoc .., un _ (by simp)⟩
        · exact same rfl hsc ⟨_, List.append_assoc .., un _ (by simp)⟩
    | deliver =>
      have none := same (k' := k) rfl rfl ⟨[], by simp, by simp⟩
      simp only [step]
      split
      · exact none
      · rename_i hcl
        have hr : k.ready = false := by simp at hcl; exact hcl.2
        split
        · rename_i e _
          cases e with
          | mark m =>
            have hm : ([Act.taken true].filter (fun x => x == .taken true)).length = 1 := by decide
            simp only [deliver]
            split
            · split
              · rename_i hc
                rcases ih with ⟨_, h2, h3⟩ | ⟨h1, _, _⟩ | ⟨h1, _, _⟩
                · refine .inr (.inl ⟨rfl, h2, ?_⟩)
                  unfold marksTaken at h3 ⊢
                  rw [List.filter_append, List.length_append, hm, h3]
                · rw [hc] at h1; cases h1
                · rw [hc] at h1; cases h1
              · rename_i hc
                rcases ih with ⟨h1, _, _⟩ | ⟨h1, _, h3⟩ | ⟨_, h2, _⟩
                · exact absurd h1 hc
                · refine .inr (.inr ⟨h1, rfl, ?_⟩)
                  unfold marksTaken at h3 ⊢
                  rw [List.filter_append, List.length_append, hm, h3]
                · rw [hr] at h2; cases h2
            · exact same rfl rfl ⟨_, rfl, by simp⟩
          | _ => exact same (k' := { k with taken := k.taken + 1 }) rfl rfl ⟨[], by simp, by simp⟩
        · exact none

/-- **C61 fails** for a request whose body the handler never reads: its response is sent and says keep-alive, everything is
taken, and the connection is neither closed nor ready for a next request. -/
theorem C61_refuted : ∃ evs : List Ev, ∃ k, k = Model.Continue.run { contentLength := 5, maxBody := 10 } false { st := { keepalive := true, cont := true } } evs ∧
    k.taken = k.st.log.length ∧ k.ready = false ∧ k.closed = false ∧
    k.st.log = [.head b!"HTTP/1.1 200 OK\r\nContent-Type: text/html; charset=utf-8\r\nContent-Length: 1\r\nConnection: keep-alive\r\nDate: \r\nServer: \r\n\r\n" b!"x" {}, .mark true] :=
  ⟨[.call (.end_ b!"x" true {}), .deliver, .deliver, .deliver], _, rfl, by decide +kernel, by decide +kernel, by decide +kernel, by decide +kernel⟩

end Verif
