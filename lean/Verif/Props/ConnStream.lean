import Verif.Props.ConnFlow
/-!
# C15, C16: what handlers get of the bytes of a connection
-/
namespace Verif
open Verif.Py Verif.Model.Conn Conn Flow

/-- **C15** for schedules in which bodies are read before the response is completed, and in which no segment is still being
queued then (`Calm`; nothing is too large, no head is refused and the server does not close the connection). The bytes
received are, in order: for each request handled its head, which ends with its first blank line, and then exactly what its
own handler took; and then the bytes not looked at yet. So no byte goes to two requests, to an earlier or a later one, or
gets lost. And `queue[0]` is empty when the task of a new head starts. Missing: see the refutations; responses that are
completed before the handler ends. A handler may send `100 Continue`, once, if its request asks for it. -/
theorem C15_partial (c : Cfg) {es : List Ev} (h : Calm c {} es) :
    (∃ rest, (run c {} es).rx = ((run c {} es).log.map Act.bytes).flatten ++ rest ∧ ∀ buf, (run c {} es).hb = some buf → rest = buf) ∧
    (∀ k raw, Act.head k raw ∈ (run c {} es).log → Spec.Stream.Minimal raw) ∧
    (∀ pre k x post, (run c {} es).log = pre ++ Act.body k x :: post → lastHead pre = some k) ∧
    ((run c {} es).closing = false → (∃ d n, HTask.new d n ∈ (run c {} es).heads) → (run c {} es).q0 = []) := by
  have i := inv_run es inv_init rfl h
  generalize run c {} es = s at *
  refine ⟨⟨pending s, by rw [i.eq]; simp [eaten], fun buf hb => ?_⟩, i.logs, i.grouped, fun hc hx => i.fresh hc (.inr hx)⟩
  obtain ⟨i1, i2, _, _⟩ := i.idle (by rw [hb]; rfl)
  have nb := no_busy (s := s) (by have := i.one.wish (by rw [hb]; rfl); unfold load at this; rw [hb] at this; simp only [wish] at this; omega)
  unfold pending
  rw [(heads_none nb).1, (heads_none nb).2, i1, flat_nil (fun r hr => by rw [i2 r hr]; rfl), hb]; simp

theorem good_run {c : Cfg} : ∀ {es : List Ev} {s : St}, Good s → Calm c s es → Good (run c s es)
  | [], _, g, _ => g
  | e :: _, s, _, h => good_run (s := step c s e) h.2.1 h.2.2

/-- **C16** for the schedules of `C15_partial`, if no handler takes bytes that come behind its head: the requests handled are
the first ones of the stream of bytes received, in order; and whenever the connection waits for a head, none is left. -/
theorem C16_partial (c : Cfg) {es : List Ev} (h : Calm c {} es) (ht : ∀ p ∈ (run c {} es).took, p.2.getD [] = []) :
    ∃ rest, Spec.Stream.Heads (run c {} es).rx ((run c {} es).started.map (·.2)) rest ∧
      ∀ buf, (run c {} es).hb = some buf → rest = buf ∧ Spec.Head.NoBlank buf := by
  obtain ⟨⟨rest, hr, hb⟩, hm, _, _⟩ := C15_partial c h
  have i := inv_run es inv_init rfl h
  have g := good_run (c := c) (es := es) (s := {}) ⟨rfl, rfl, fun _ hx => by cases hx⟩ h
  generalize run c {} es = s at *
  refine ⟨rest, ?_, fun buf hx => ⟨hb buf hx, i.blank g.2.1 buf hx⟩⟩
  have key : ∀ l : List Act, (∀ p ∈ l.filterMap (fun | .head _ _ => none | .body k x => some (k, x)), p.2.getD [] = []) →
      (l.map Act.bytes).flatten = ((l.filterMap (fun | .head k raw => some (k, raw) | .body _ _ => none)).map (·.2)).flatten := by
    intro l
    induction l with
    | nil => intro _; rfl
    | cons a l ih =>
      intro hl
      cases a with
      | head k raw =>
        have := ih (fun p hp => hl p (by simpa using hp))
        rw [List.filterMap_cons_some (by rfl)]
        simp only [List.map_cons, List.flatten_cons, this, Act.bytes]
      | body k x =>
        have h1 := ih (fun p hp => hl p (by rw [List.filterMap_cons_some (by rfl)]; simp [hp]))
        have h2 : x.getD [] = [] := hl (k, x) (by rw [List.filterMap_cons_some (by rfl)]; simp)
        simp only [List.map_cons, List.flatten_cons, h1, Act.bytes, h2, List.nil_append]
        rw [List.filterMap_cons_none (by rfl)]
  rw [hr, key s.log ht]
  refine Spec.Stream.heads_flatten (fun raw hraw => ?_) rest
  obtain ⟨⟨k, r⟩, hk, rfl⟩ := List.mem_map.1 hraw
  obtain ⟨a, ha, hs⟩ := List.mem_filterMap.1 hk
  cases a with
  | head k' raw' => cases hs; exact hm _ _ ha
  | body _ _ => cases hs

instance (h : HTask) : Decidable (good h) := by cases h <;> unfold good <;> infer_instance
instance (s : St) : Decidable (Good s) := by unfold Good; infer_instance

def expB (s : St) : Bool :=
  (match s.cur with | some k => (match s.reqs[k]? with | some r => r.req.httpContinue | none => false) | none => false)

theorem exp_ofB {s : St} (h : expB s = true) : Expecting s := by
  unfold expB at h
  split at h
  · next k hk =>
    split at h
    · next r hr => exact ⟨k, r, hk, hr, h⟩
    · cases h
  · cases h

def calmB (s : St) : Ev → Bool
  | .mark k _ => s.running.contains k && s.cur == some k && expB s && !s.q1.contains none
  | .take k => s.running.contains k
  | .send => s.q1.head? != some none || expB s || (s.recvs.all (· == .done) &&
      (match s.cur with | some k => (match s.reqs[k]? with | some r => !r.req.hasBody || s.q0.isEmpty | none => true) | none => true))
  | _ => true

theorem calm_of {s : St} {e : Ev} (h : calmB s e = true) : calm s e := by
  cases e with
  | mark k _ =>
    simp only [calmB, Bool.and_eq_true, Bool.not_eq_true', beq_iff_eq] at h
    exact ⟨by simpa using h.1.1.1, h.1.1.2, exp_ofB h.1.2, by simpa using h.2⟩
  | take k => simpa [calmB, calm] using h
  | send =>
    intro hq
    simp only [calmB, hq, bne_self_eq_false, Bool.false_or, Bool.and_eq_true, Bool.or_eq_true] at h
    rcases h with h | h
    · exact .inl (exp_ofB h)
    refine .inr ⟨fun r hr => by simpa using List.all_eq_true.1 h.1 r hr, fun k r hk hr hb => ?_⟩
    have := h.2
    rw [hk] at this; dsimp only at this; rw [hr] at this; dsimp only at this; rw [hb] at this; simpa using this
  | _ => trivial

def CalmB (c : Cfg) : St → List Ev → Bool
  | _, [] => true
  | s, e :: es => calmB s e && decide (Good (step c s e)) && CalmB c (step c s e) es

theorem CalmB.calm {c : Cfg} : ∀ {es : List Ev} {s : St}, CalmB c s es = true → Calm c s es
  | [], _, _ => trivial
  | _ :: _, _, h => by
    simp only [CalmB, Bool.and_eq_true, decide_eq_true_eq] at h
    exact ⟨calm_of h.1.1, h.1.2, CalmB.calm h.2⟩

/-- A request with a body that is read, followed on the same connection by two requests in one segment. -/
def threeRequests : List Ev :=
  [.data b!"POST / HTTP/1.1\r\nContent-Length: 5\r\n\r\nhel", .head 0, .head 0, .take 0, .data b!"lo", .recv 0, .recv 0, .take 0, .take 0, .leave 0 true, .send,
   .data b!"GET /2 HTTP/1.1\r\n\r\nGET /3 HTTP/1.1\r\n", .head 1, .head 1, .data b!"\r\nGE", .recv 1, .recv 1, .leave 1 true, .send, .head 2, .head 2, .leave 2 true, .send]

/-- The hypotheses of `C15_partial` hold for it. -/
example : Calm {} {} threeRequests ∧ (run {} {} threeRequests).log =
    [.head 0 b!"POST / HTTP/1.1\r\nContent-Length: 5\r\n\r\n", .body 0 (some b!"hel"), .body 0 (some b!"lo"), .body 0 none,
     .head 1 b!"GET /2 HTTP/1.1\r\n\r\n", .head 2 b!"GET /3 HTTP/1.1\r\n\r\n"] ∧ (run {} {} threeRequests).hb = some b!"GE" :=
  ⟨CalmB.calm (by decide +kernel), by decide +kernel⟩

/-- Those of `C16_partial` hold for the requests without a body. -/
example : let es : List Ev := [.data b!"GET /2 HTTP/1.1\r\n\r\nGET /3 HTTP/1.1\r\n", .head 0, .head 0, .data b!"\r\nGE", .recv 0, .recv 0, .take 0, .leave 0 true, .send,
      .head 1, .head 1, .leave 1 true, .send]
    Calm {} {} es ∧ (run {} {} es).took = [(0, some [])] ∧ (run {} {} es).hb = some b!"GE" ∧
    (run {} {} es).started = [(0, b!"GET /2 HTTP/1.1\r\n\r\n"), (1, b!"GET /3 HTTP/1.1\r\n\r\n")] :=
  ⟨CalmB.calm (by decide +kernel), by decide +kernel⟩

end Verif
